/-!
# Base: Go panics as values

Go code that indexes slices, slices them or dereferences pointers can panic. Model functions return
`Go α = Except Panic α`, so that a panic is a result theorems must talk about, never a default value.
-/

namespace Verif

/-- Reasons for a Go run-time panic that the model distinguishes. -/
inductive Panic where
  | index            -- index out of range
  | slice            -- slice bounds out of range
  | nilDeref         -- nil pointer / nil interface dereference
  | closeClosed      -- close of closed channel
  | sendClosed       -- send on closed channel
  | negWaitGroup     -- negative WaitGroup counter
  | unlockUnlocked   -- unlock of unlocked mutex
  | typeAssert       -- failed type assertion
  | reflect          -- misuse of package reflect
  | explicit         -- panic(...) written in the source
  | overflow         -- stack overflow (unbounded recursion)
  | nilMap           -- assignment to entry in nil map
  deriving DecidableEq, Repr

/-- Result of a Go computation: a value or a panic. -/
abbrev Go (α : Type) := Except Panic α

deriving instance DecidableEq for Except

namespace Go

/-- `a[i]` for a Go slice: panics unless `0 ≤ i < len(a)`. -/
def idx (l : List α) (i : Int) : Go α :=
  if 0 ≤ i then
    match l[i.toNat]? with
    | some a => .ok a
    | none => .error .index
  else .error .index

/-- `a[i] = x` for a Go slice: panics unless `0 ≤ i < len(a)`. -/
def set (l : List α) (i : Int) (x : α) : Go (List α) :=
  if 0 ≤ i ∧ i < l.length then .ok (l.set i.toNat x) else .error .index

example : set [1, 2] (-1) 5 = .error .index ∧ set [1, 2] 2 5 = .error .index ∧ set [1, 2] 1 5 = .ok [1, 5] := ⟨rfl, rfl, rfl⟩

/-- `a[i], a[j] = a[j], a[i]` for a Go slice. -/
def swap (l : List α) (i j : Int) : Go (List α) := do
  let x ← idx l i
  let y ← idx l j
  let l ← set l i y
  set l j x

/-- `a[i:j]` for a Go slice whose capacity equals its length: panics unless `0 ≤ i ≤ j ≤ len(a)`. -/
def slice (l : List α) (i j : Int) : Go (List α) :=
  if 0 ≤ i ∧ i ≤ j ∧ j ≤ l.length then .ok ((l.take j.toNat).drop i.toNat) else .error .slice

theorem idx_nat (l : List α) (i : Nat) (h : i < l.length) : idx l (i : Int) = .ok l[i] := by
  simp [idx, List.getElem?_eq_getElem h]

theorem idx_nat_panic (l : List α) (i : Nat) (h : l.length ≤ i) : idx l (i : Int) = .error .index := by
  simp [idx, List.getElem?_eq_none h]

theorem set_nat (l : List α) (i : Nat) (x : α) (h : i < l.length) :
    set l (i : Int) x = .ok (l.set i x) := by
  have : (i : Int) < l.length := by omega
  simp [set, this]

theorem swap_nat (l : List α) (i j : Nat) (hi : i < l.length) (hj : j < l.length) :
    swap l (i : Int) (j : Int) = .ok ((l.set i l[j]).set j l[i]) := by
  unfold swap
  rw [idx_nat l i hi, idx_nat l j hj]
  simp only [bind, Except.bind]
  rw [set_nat l i _ hi]
  simp only
  rw [set_nat _ j _ (by simpa using hj)]

end Go
end Verif

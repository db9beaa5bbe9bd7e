import Verif.Base
/-!
# Model of /repo/utils/lists
-/
namespace Verif.Lists

variable {α : Type}

/-- /repo/utils/lists/group.go L15-22: the loop body for the remaining bucket numbers. -/
def splitLoop (inp : List α) (chunkSize : Int) : List Nat → Go (List (List α))
  | [] => .ok []
  | i :: is => do
    let start : Int := (i : Int) * chunkSize
    let stop : Int := start + chunkSize
    let stop := if stop > inp.length then (inp.length : Int) else stop
    let c ← Go.slice inp start stop
    let rest ← splitLoop inp chunkSize is
    pure (c :: rest)

/-- /repo/utils/lists/group.go L3-25 `Split`. `int` is modelled by `Int` (no overflow: the sums are
below `2*len+1` once the early return at L7 is passed). Go's `/` truncates toward zero, which is `Int.tdiv`. -/
def split (inp : List α) (maxSplitSize : Int) : Go (List (List α)) :=
  if maxSplitSize ≤ 0 then .error .explicit
  else if (inp.length : Int) ≤ maxSplitSize then .ok [inp]
  else
    let buckets : Int := ((inp.length : Int) + maxSplitSize - 1).tdiv maxSplitSize
    let chunkSize : Int := ((inp.length : Int) + buckets - 1).tdiv buckets
    splitLoop inp chunkSize (List.range buckets.toNat)

/-- /repo/utils/lists/group.go L27-33 `Flatten`. -/
def flatten (inp : List (List α)) : List α :=
  inp.foldl (fun out group => out ++ group) []

/-- /repo/utils/lists/reverse.go L3-10 `Reverse`: the loop, with `fuel` bounding the iterations by
`len(a)/2 - i` (the loop variable strictly increases). -/
def reverseLoop (n : Nat) : Nat → Int → Int → List α → Go (List α)
  | 0, i, _, a => if i < ((n : Int).tdiv 2) then .error .overflow else .ok a
  | fuel + 1, i, j, a =>
    if i < ((n : Int).tdiv 2) then do
      let a ← Go.swap a i j
      reverseLoop n fuel (i + 1) (j - 1) a
    else .ok a

/-- /repo/utils/lists/reverse.go L3-10 `Reverse`: content of the slice after the call. -/
def reverse (a : List α) : Go (List α) :=
  reverseLoop a.length a.length 0 ((a.length : Int) - 1) a

/-- /repo/utils/lists/lists.go `Contains`. -/
def contains [DecidableEq α] : List α → α → Bool
  | [], _ => false
  | e :: a, i => if e = i then true else contains a i

/-- /repo/utils/lists/lists.go `AddUnique`. -/
def addUnique [DecidableEq α] (a : List α) (i : α) : List α :=
  if contains a i then a else a ++ [i]

/-! ### /repo/utils/lists/set.go: `Set` over `sync.Map`, modelled as the list of its keys. Iteration order of
`sync.Map.Range` is not specified; `All` is modelled as the key list and theorems only use it up to order. -/

/-- `Set[T]`: the keys present in the underlying `sync.Map` (all values are `true`). utils/lists/set.go L5-7. -/
structure Set (α : Type) where
  keys : List α

/-- The zero `Set`; utils/lists/set.go L5-7. -/
def Set.empty : Set α := ⟨[]⟩

/-- set.go L9-12 `Add`: `LoadOrStore(t, true)`, true iff it was absent. -/
def Set.add [DecidableEq α] (s : Set α) (t : α) : Set α × Bool :=
  if t ∈ s.keys then (s, false) else (⟨t :: s.keys⟩, true)

/-- set.go L14-17 `Has`. -/
def Set.has [DecidableEq α] (s : Set α) (t : α) : Bool := decide (t ∈ s.keys)

/-- set.go L19-21 `Remove`: `CompareAndDelete(t, true)`, true iff it was present (values are always `true`). -/
def Set.remove [DecidableEq α] (s : Set α) (t : α) : Set α × Bool :=
  if t ∈ s.keys then (⟨s.keys.erase t⟩, true) else (s, false)

/-- set.go L23-29 `All`. -/
def Set.all (s : Set α) : List α := s.keys

/-! ### /repo/utils/lists/perm.go -/

/-- perm.go L28-31 `permElem`. -/
structure PermElem where
  right : Bool
  orig : Nat
  deriving DecidableEq, Repr

/-- perm.go L33-36 `permGen`. -/
structure PermGen (α : Type) where
  inplace : List α
  elems : List PermElem

/-- perm.go L38-49 `permute`. -/
def permute (inplace : List α) : PermGen α :=
  { inplace, elems := (List.range inplace.length).map fun i => { right := false, orig := i } }

/-- perm.go L57-71: whether the scan does not `continue` at index `i`, i.e. the element there can move. -/
def canMove (elems : List PermElem) (i : Nat) (el : PermElem) : Go Bool :=
  if el.right then
    if (i : Int) = (elems.length : Int) - 1 then .ok false
    else do
      let nx ← Go.idx elems ((i : Int) + 1)
      let me ← Go.idx elems i
      pure (!decide (nx.orig > me.orig))
  else
    if i = 0 then .ok false
    else do
      let pv ← Go.idx elems ((i : Int) - 1)
      let me ← Go.idx elems i
      pure (!decide (pv.orig > me.orig))

/-- perm.go L55-78: the scan for the largest mobile element; returns `(best_orig, best)`. -/
def scan (elems : List PermElem) : List PermElem → Nat → Int × Int → Go (Int × Int)
  | [], _, acc => .ok acc
  | el :: rest, i, (bo, b) => do
    let m ← canMove elems i el
    if m then
      if (el.orig : Int) > bo then scan elems rest (i + 1) ((el.orig : Int), (i : Int))
      else scan elems rest (i + 1) (bo, b)
    else scan elems rest (i + 1) (bo, b)

/-- perm.go L94-99: flip the direction of every element bigger than the moved one. -/
def flip (bo : Int) (elems : List PermElem) : List PermElem :=
  elems.map fun el => if (el.orig : Int) > bo then { el with right := !el.right } else el

/-- perm.go L51-101 `next`: new state and the returned bool. -/
def PermGen.next (g : PermGen α) : Go (PermGen α × Bool) := do
  let (bo, b) ← scan g.elems g.elems 0 (-1, -1)
  if b < 0 then pure (g, false)
  else do
    let el ← Go.idx g.elems b
    let t := if el.right then b + 1 else b - 1
    let elems ← Go.swap g.elems b t
    let inplace ← Go.swap g.inplace b t
    pure ({ inplace, elems := flip bo elems }, true)

/-- perm.go L16-26: the closure returned by `Permute`, with its captured `first` flag. -/
structure Closure (α : Type) where
  gen : PermGen α
  first : Bool

/-- The closure `Permute` returns; utils/lists/perm.go L16-26. -/
def Closure.new (inplace : List α) : Closure α := ⟨permute inplace, true⟩

/-- One call of it; utils/lists/perm.go L16-26. -/
def Closure.call (c : Closure α) : Go (Closure α × Bool) :=
  if c.first then .ok ({ c with first := false }, true)
  else do
    let (g, b) ← c.gen.next
    pure ({ c with gen := g }, b)

end Verif.Lists

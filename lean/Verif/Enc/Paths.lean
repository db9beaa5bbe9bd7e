import Verif.Enc.Unmarshal
/-!
# The path of a `Handler` (enc/enc.go L34-59, enc/handler.go L22-28)

Go slices are modelled as they are: arrays on a heap, and slices that are a prefix of an array. `append` writes in place if there is room, and otherwise copies to a new array
whose capacity is chosen by the run time (a parameter). Handlers are passed by value, so a handler and those made from it by `Append` may share an array.
-/
set_option autoImplicit false
namespace Verif.Enc.Paths
open Verif.Strconv Verif.Enc

/-- An element of a path (enc/enc.go L38-46): a name or key (`string`), an index (`int`), or something else, given by its `%v` text (a type). -/
inductive Elem where
  | key (s : Str)
  | idx (i : Int)
  | other (s : Str)
deriving DecidableEq

/-- One turn of the loop (enc/enc.go L38-46). -/
def Elem.text : Elem → Str
  | .key s => lit "." ++ s
  | .idx i => lit "[" ++ fmtInt i ++ lit "]"
  | .other s => lit "{" ++ s ++ lit "}"

/-- The loop (enc/enc.go L37-47). -/
def textLoop : List Elem → Str → Str
  | [], out => out
  | e :: l, out => textLoop l (out ++ e.text)

/-- `strings.TrimPrefix(out, ".")` (enc/enc.go L51). -/
def trimDot : Str → Str
  | [] => []
  | c :: cs => if c = '.' then cs else c :: cs

/-- `path.String` (enc/enc.go L36-52). -/
def text (p : List Elem) : Str :=
  let out := textLoop p []
  if out = [] then lit "ROOT" else trimDot out

/-- `path.Parent` (enc/enc.go L54-59); the capacity does not matter, since the bounds are below the length. -/
def parent (p : List Elem) : Go (List Elem) :=
  if p.length > 0 then Go.slice p 0 ((p.length : Int) - 2) else .ok p

/-- A step from a value to a part of it: a field of a struct, an element of a list or array, the value under a key of a map. enc/map.go L56-85, L92-106, enc/list.go L49-51. -/
inductive Place where
  | field (name : Str)
  | index (i : Nat)
  | value (key : Str)
deriving DecidableEq

/-- The element appended for a step (enc/map.go L80, L100, enc/list.go L51, L68). -/
def Place.elem : Place → Elem
  | .field n => .key n
  | .index i => .idx i
  | .value _ => .key (lit "#val")

/-- The path in the text of an error (enc/scalar.go L35 and the like), below a variable whose type has the text `root` (enc/handler.go L48). -/
def placeText (root : Str) (l : List Place) : Str := text (.other root :: l.map Place.elem)

/-! ### slices with a capacity -/

/-- The arrays; the capacity of an array is its length, cells not written yet are `none`. For enc/handler.go L26. -/
abbrev Heap (α : Type) := List (List (Option α))

/-- A slice: its array (`none` if nil) and its length. enc/enc.go L34. -/
structure Slice where
  arr : Option Nat
  len : Nat
deriving DecidableEq

/-- What a slice holds now. enc/enc.go L34. -/
def read {α : Type} (h : Heap α) (s : Slice) : List (Option α) :=
  match s.arr with
  | none => []
  | some a => (h.getD a []).take s.len

/-- The capacity of a slice. enc/handler.go L26. -/
def capacity {α : Type} (h : Heap α) (s : Slice) : Nat :=
  match s.arr with
  | none => 0
  | some a => (h.getD a []).length

/-- `append(s, x)` (enc/handler.go L26, enc/map.go L110): in place if there is room, else in a new array, `grow` (of the old capacity) cells larger than needed. -/
def append {α : Type} (grow : Nat → Nat) (h : Heap α) (s : Slice) (x : α) : Heap α × Slice :=
  if s.len < capacity h s then
    match s.arr with
    | none => (h, s)
    | some a => (h.set a ((h.getD a []).set s.len (some x)), ⟨some a, s.len + 1⟩)
  else (h ++ [read h s ++ some x :: List.replicate (grow (capacity h s)) none], ⟨some h.length, s.len + 1⟩)

/-- What `unmarshal` does with the path below some point: the parts it descends to, one after the other, each with the element appended (enc/map.go L74-80, L100,
enc/list.go L51, L68), and then the keys it reports (enc/map.go L107-116). -/
inductive Walk (α : Type) where
  | mk (parts : List (α × Walk α)) (reports : List α)

/-- Reporting keys: the slices passed to `UnhandledFields`, each with what it holds during the call (enc/map.go L107-116). -/
def reportWalk {α : Type} (grow : Nat → Nat) (s : Slice) : List α → Heap α → Heap α × List (Slice × List (Option α))
  | [], h => (h, [])
  | k :: ks, h =>
    let r := append grow h s k
    let rest := reportWalk grow s ks r.1
    (rest.1, (r.2, read r.1 r.2) :: rest.2)

mutual
/-- The walk with the handler whose path is `s`: the heap afterwards, and the slices passed to `UnhandledFields` with what they held (enc/map.go L49-117, enc/list.go L40-74). -/
def walk {α : Type} (grow : Nat → Nat) (s : Slice) : Walk α → Heap α → Heap α × List (Slice × List (Option α))
  | .mk parts reports, h =>
    let r := walkParts grow s parts h
    let q := reportWalk grow s reports r.1
    (q.1, r.2 ++ q.2)
/-- The parts, one after the other: `handler.Append(x).unmarshal(…)` (enc/map.go L74-80, L100, enc/list.go L51, L68). -/
def walkParts {α : Type} (grow : Nat → Nat) (s : Slice) : List (α × Walk α) → Heap α → Heap α × List (Slice × List (Option α))
  | [], h => (h, [])
  | (x, w) :: l, h =>
    let a := append grow h s x
    let r := walk grow a.2 w a.1
    let q := walkParts grow s l r.1
    (q.1, r.2 ++ q.2)
end

/-- `Handler{}.Unmarshal` (enc/handler.go L43-49): the path is nil, and gets the type first. -/
def start {α : Type} (grow : Nat → Nat) (root : α) (w : Walk α) : Heap α × List (Slice × List (Option α)) :=
  let a := append grow ([] : Heap α) ⟨none, 0⟩ root
  walk grow a.2 w a.1

/-- How Go grows a slice of `any` of less than 256 elements: the capacity is doubled, and one at first (`runtime.growslice`). For enc/handler.go L26. -/
def goGrow (cap : Nat) : Nat := cap - 1

end Verif.Enc.Paths

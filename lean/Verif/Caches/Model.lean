import Verif.Base
/-!
# Model of /repo/utils/caches: `LRU` (with Go's `container/heap`) and `Mem`

Every public method runs under the cache mutex, so one call is one atomic step. The clock reading and the outcome
of the miss function are inputs of the step.
-/
namespace Verif.Caches

variable {K V E : Type}

/-- /repo/utils/caches/lru.go L116-121 `lruEntry`. `last` is `time.Time`: 0 stands for the zero time, and the
clock readings are naturals; `Before` is `<`. -/
structure Entry (K V : Type) where
  key : K
  val : V
  last : Nat
  size : Int
  deriving DecidableEq, Repr

/-- /repo/utils/caches/lru.go L111-114 `lruHeap`. The Go map `index` is only read and written by key, so it is a function. -/
structure Heap (K V : Type) where
  list : List (Entry K V)
  index : K → Option Nat

variable [DecidableEq K]

/-- Go map write `m[k] = i` / `delete(m, k)`. lru.go L131-150. -/
def upd (m : K → Option Nat) (k : K) (v : Option Nat) : K → Option Nat := fun x => if x = k then v else m x

/-- lru.go L127-129 `Less`. -/
def Heap.less (h : Heap K V) (i j : Nat) : Go Bool := do
  let a ← Go.idx h.list i
  let b ← Go.idx h.list j
  pure (decide (a.last < b.last))

/-- lru.go L131-137 `Swap`. -/
def Heap.swap (h : Heap K V) (i j : Int) : Go (Heap K V) := do
  let l ← Go.swap h.list i j
  let a ← Go.idx l i
  let b ← Go.idx l j
  pure { list := l, index := upd (upd h.index a.key (some i.toNat)) b.key (some j.toNat) }

/-- lru.go L139-144 `Pop` (the `heap.Interface` method: removes the last element). -/
def Heap.popLast (h : Heap K V) : Go (Heap K V × Entry K V) := do
  let e ← Go.idx h.list ((h.list.length : Int) - 1)
  let l ← Go.slice h.list 0 ((h.list.length : Int) - 1)
  pure ({ list := l, index := upd h.index e.key none }, e)

/-- lru.go L146-150 `Push` (the `heap.Interface` method: appends). -/
def Heap.pushLast (h : Heap K V) (e : Entry K V) : Heap K V :=
  { list := h.list ++ [e], index := upd h.index e.key (some h.list.length) }

/-- Go `container/heap` `up`; `fuel` bounds the iterations (the position strictly decreases). Called through lru.go L61-98. -/
def Heap.up : Nat → Heap K V → Nat → Go (Heap K V)
  | 0, _, _ => .error .overflow
  | fuel + 1, h, j => do
    let i := (j - 1) / 2
    if i = j then pure h
    else
      let lt ← h.less j i
      if !lt then pure h
      else do
        let h ← h.swap i j
        Heap.up fuel h i

/-- Go `container/heap` `down`: the choice of the smaller child, `j1 = 2*i+1` or `j2 = j1+1`. Called through lru.go L45-98. -/
def Heap.smallerChild (h : Heap K V) (i n : Nat) : Go Nat :=
  let j1 := 2 * i + 1
  let j2 := j1 + 1
  if j2 < n then do
    let right ← h.less j2 j1
    pure (if right then j2 else j1)
  else .ok j1

/-- Go `container/heap` `down`: final heap and final position; `fuel` bounds the iterations. Called through lru.go L45-98. -/
def Heap.down : Nat → Heap K V → Nat → Nat → Go (Heap K V × Nat)
  | 0, _, _, _ => .error .overflow
  | fuel + 1, h, i, n => do
    let j1 := 2 * i + 1
    if j1 ≥ n then pure (h, i)
    else do
      let j ← h.smallerChild i n
      let lt ← h.less j i
      if !lt then pure (h, i)
      else do
        let h ← h.swap i j
        Heap.down fuel h j n

/-- Go `container/heap` `Push`. Called in lru.go L89. -/
def Heap.push (h : Heap K V) (e : Entry K V) : Go (Heap K V) :=
  let h := h.pushLast e
  Heap.up h.list.length h (h.list.length - 1)

/-- Go `container/heap` `Pop`; on an empty heap `Swap(0, -1)` panics. Called in lru.go L56 and L93. -/
def Heap.pop (h : Heap K V) : Go (Heap K V × Entry K V) := do
  let n : Int := (h.list.length : Int) - 1
  let h ← h.swap 0 n
  let (h, _) ← Heap.down h.list.length h 0 n.toNat
  h.popLast

/-- Go `container/heap` `Fix`. Called in lru.go L54 and L69. -/
def Heap.fix (h : Heap K V) (i : Nat) : Go (Heap K V) := do
  let (h', i') ← Heap.down h.list.length h i h.list.length
  if i' > i then pure h' else Heap.up (i + 1) h' i

/-- /repo/utils/caches/cache.go `HitMiss`. -/
inductive HitMiss where
  | hit | miss | no | err
  deriving DecidableEq, Repr

/-- lru.go L12-20 `LRU` (the mutex and the miss function are not part of the state). -/
structure LRU (K V : Type) where
  heap : Heap K V
  maxSize : Int
  curSize : Int

/-- lru.go L22-32 `NewLRU`. -/
def LRU.new (maxSize : Int) : LRU K V :=
  { heap := { list := [], index := fun _ => none }, maxSize, curSize := 0 }

/-- lru.go L34-43 `Keys`. -/
def LRU.keys (c : LRU K V) : List K := c.heap.list.map (·.key)

/-- lru.go L45-59 `Invalidate`. -/
def LRU.invalidate (c : LRU K V) (k : K) : Go (LRU K V) :=
  match c.heap.index k with
  | none => .ok c
  | some i => do
    let e ← Go.idx c.heap.list i
    let l ← Go.set c.heap.list i { e with last := 0 }
    let h ← Heap.fix { c.heap with list := l } i
    let (h, entry) ← h.pop
    pure { c with heap := { h with index := upd h.index entry.key none }, curSize := c.curSize - entry.size }

/-- lru.go L92-96: the eviction loop; `fuel` bounds the iterations (each one shortens the list). -/
def LRU.evict : Nat → LRU K V → Go (LRU K V)
  | 0, c => if c.curSize > c.maxSize then .error .overflow else .ok c
  | fuel + 1, c =>
    if c.curSize > c.maxSize then do
      let (h, e) ← c.heap.pop
      LRU.evict fuel { c with heap := h, curSize := c.curSize - e.size }
    else .ok c

/-- What a call to the miss function returned: a value with, on success, the reported element size. lru.go L61-98. -/
inductive Outcome (V E : Type) where
  | ok (v : V) (size : Int)
  | fail (v : V) (e : E)
  deriving DecidableEq, Repr

/-- Observable result of `Get`: value, kind of result, error, and whether the miss function was called. lru.go L61-98, mem.go L28-41. -/
structure Res (V E : Type) where
  val : V
  hm : HitMiss
  err : Option E
  called : Bool
  deriving DecidableEq, Repr

/-- lru.go L61-98 `Get`. `now` is the clock reading (L68 or L86), `o` the outcome of `OnMiss` if it is called.
At L67 `entry` is a copy of the heap element: the assignment at L68 changes only the copy, so it leaves no trace here. -/
def LRU.get (c : LRU K V) (now : Nat) (k : K) (o : Outcome V E) : Go (LRU K V × Res V E) :=
  match c.heap.index k with
  | some i => do
    let e ← Go.idx c.heap.list i
    let h ← c.heap.fix i
    pure ({ c with heap := h }, { val := e.val, hm := .hit, err := none, called := false })
  | none =>
    match o with
    | .fail v e => .ok (c, { val := v, hm := .err, err := some e, called := true })
    | .ok v size =>
      if size = 0 then .ok (c, { val := v, hm := .no, err := none, called := true })
      else do
        let h ← c.heap.push { key := k, val := v, last := now, size }
        let c' : LRU K V := { c with heap := h, curSize := c.curSize + size }
        let c'' ← LRU.evict (h.list.length + 1) c'
        pure (c'', { val := v, hm := .miss, err := none, called := true })

/-! ### /repo/utils/caches/mem.go -/

/-- mem.go L9-13 `memCache`: the Go map, as an association list with distinct keys. -/
structure Mem (K V : Type) where
  m : List (K × V)

/-- mem.go L15-20 `Mem`. -/
def Mem.new : Mem K V := ⟨[]⟩

/-- mem.go L22-26 `Invalidate`. -/
def Mem.invalidate (c : Mem K V) (k : K) : Mem K V := ⟨c.m.filter (fun p => decide (p.1 ≠ k))⟩

/-- mem.go L28-41 `Get`; `o` is the outcome of the miss function if it is called. -/
def Mem.get (c : Mem K V) (k : K) (o : V × Option E) : Mem K V × Res V E :=
  match c.m.find? (fun p => decide (p.1 = k)) with
  | some (_, v) => (c, { val := v, hm := .hit, err := none, called := false })
  | none =>
    match o with
    | (v, some e) => (c, { val := v, hm := .err, err := some e, called := true })
    | (v, none) => (⟨(k, v) :: c.m⟩, { val := v, hm := .miss, err := none, called := true })

end Verif.Caches

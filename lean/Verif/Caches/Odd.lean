import Verif.Caches.Props
/-!
# Keys that are not equal to themselves (C156): utils/caches

A comparable Go type may hold values that are not equal to themselves: a float that is not a number, an array or a struct with
such a float, an interface holding one. A map entry made with such a key can be neither found nor removed by its key. `Mem` and
`LRU` are generic over comparable keys, and both hold a map. Model.lean has key types with lawful equality; here `==` is any
symmetric and transitive relation, given by the class of each key: keys are equal if they have the same class, and a key without a
class (`odd`) is equal to nothing.
-/
set_option autoImplicit false
set_option linter.unusedSectionVars false
set_option linter.unusedSimpArgs false
namespace Verif.Caches.Odd
open Verif.Caches

variable {K C V E A : Type} [DecidableEq C]

/-! ### Go maps over such keys -/

/-- Go's `==` on keys, as the maps of lru.go L113 and mem.go L12 use it. -/
def same (cls : K → Option C) (a b : K) : Bool :=
  match cls a, cls b with
  | some x, some y => decide (x = y)
  | _, _ => false

/-- A Go map, as the list of its entries in the order they were made: mem.go L12, lru.go L113. -/
abbrev GMap (K A : Type) := List (K × A)

/-- `v, exists := m[k]`: mem.go L31, lru.go L49 and L65. -/
def look (cls : K → Option C) (m : GMap K A) (k : K) : Option A := (m.find? fun p => same cls p.1 k).map (·.2)

/-- `m[k] = v`: mem.go L39, lru.go L135-136 and L148. (Of two equal keys, as the two zeros of a float, the entry keeps the first
here; the caches never read the keys of their maps.) -/
def put (cls : K → Option C) (m : GMap K A) (k : K) (v : A) : GMap K A :=
  if m.any fun p => same cls p.1 k then m.map fun p => if same cls p.1 k then (p.1, v) else p else m ++ [(k, v)]

/-- `delete(m, k)`: mem.go L25, lru.go L57 and L142. -/
def del (cls : K → Option C) (m : GMap K A) (k : K) : GMap K A := m.filter fun p => !same cls p.1 k

/-! ### `Mem` -/

/-- mem.go L22-26 `Invalidate`. -/
def memInvalidate (cls : K → Option C) (m : GMap K V) (k : K) : GMap K V := del cls m k

/-- mem.go L28-41 `Get`; `o` is the outcome of the miss function if it is called. -/
def memGet (cls : K → Option C) (m : GMap K V) (k : K) (o : V × Option E) : GMap K V × Res V E :=
  match look cls m k with
  | some v => (m, { val := v, hm := .hit, err := none, called := false })
  | none =>
    match o with
    | (v, some e) => (m, { val := v, hm := .err, err := some e, called := true })
    | (v, none) => (put cls m k v, { val := v, hm := .miss, err := none, called := true })

/-- Calls on the cache, one after the other: mem.go L22-41. -/
def memRun (cls : K → Option C) (m : GMap K V) : List (MemOp K V E) → GMap K V × List (Option (Res V E))
  | [] => (m, [])
  | .get k o :: ops =>
    let (m, r) := memGet cls m k o
    let (m, rs) := memRun cls m ops
    (m, some r :: rs)
  | .inv k :: ops =>
    let (m, rs) := memRun cls (memInvalidate cls m k) ops
    (m, none :: rs)

/-! ### `LRU` -/

/-- lru.go L111-114 `lruHeap`, with the index as a Go map. -/
structure OHeap (K V : Type) where
  list : List (Entry K V)
  index : GMap K Nat

/-- lru.go L127-129 `Less`. -/
def OHeap.less (h : OHeap K V) (i j : Nat) : Go Bool := do
  let a ← Go.idx h.list i
  let b ← Go.idx h.list j
  pure (decide (a.last < b.last))

/-- lru.go L131-137 `Swap`. -/
def OHeap.swap (cls : K → Option C) (h : OHeap K V) (i j : Int) : Go (OHeap K V) := do
  let l ← Go.swap h.list i j
  let a ← Go.idx l i
  let b ← Go.idx l j
  pure { list := l, index := put cls (put cls h.index a.key i.toNat) b.key j.toNat }

/-- lru.go L139-144 `Pop` (the `heap.Interface` method: removes the last element). -/
def OHeap.popLast (cls : K → Option C) (h : OHeap K V) : Go (OHeap K V × Entry K V) := do
  let e ← Go.idx h.list ((h.list.length : Int) - 1)
  let l ← Go.slice h.list 0 ((h.list.length : Int) - 1)
  pure ({ list := l, index := del cls h.index e.key }, e)

/-- lru.go L146-150 `Push` (the `heap.Interface` method: appends). -/
def OHeap.pushLast (cls : K → Option C) (h : OHeap K V) (e : Entry K V) : OHeap K V :=
  { list := h.list ++ [e], index := put cls h.index e.key h.list.length }

/-- Go `container/heap` `up`, as in Model.lean. Called through lru.go L61-98. -/
def OHeap.up (cls : K → Option C) : Nat → OHeap K V → Nat → Go (OHeap K V)
  | 0, _, _ => .error .overflow
  | fuel + 1, h, j => do
    let i := (j - 1) / 2
    if i = j then pure h
    else
      let lt ← h.less j i
      if !lt then pure h
      else do
        let h ← h.swap cls i j
        OHeap.up cls fuel h i

/-- Go `container/heap` `down`: the choice of the smaller child, as in Model.lean. Called through lru.go L45-98. -/
def OHeap.smallerChild (h : OHeap K V) (i n : Nat) : Go Nat :=
  let j1 := 2 * i + 1
  let j2 := j1 + 1
  if j2 < n then do
    let right ← h.less j2 j1
    pure (if right then j2 else j1)
  else .ok j1

/-- Go `container/heap` `down`, as in Model.lean. Called through lru.go L45-98. -/
def OHeap.down (cls : K → Option C) : Nat → OHeap K V → Nat → Nat → Go (OHeap K V × Nat)
  | 0, _, _, _ => .error .overflow
  | fuel + 1, h, i, n => do
    let j1 := 2 * i + 1
    if j1 ≥ n then pure (h, i)
    else do
      let j ← h.smallerChild i n
      let lt ← h.less j i
      if !lt then pure (h, i)
      else do
        let h ← h.swap cls i j
        OHeap.down cls fuel h j n

/-- Go `container/heap` `Push`. Called in lru.go L89. -/
def OHeap.push (cls : K → Option C) (h : OHeap K V) (e : Entry K V) : Go (OHeap K V) :=
  let h := h.pushLast cls e
  OHeap.up cls h.list.length h (h.list.length - 1)

/-- Go `container/heap` `Pop`. Called in lru.go L56 and L93. -/
def OHeap.pop (cls : K → Option C) (h : OHeap K V) : Go (OHeap K V × Entry K V) := do
  let n : Int := (h.list.length : Int) - 1
  let h ← h.swap cls 0 n
  let (h, _) ← OHeap.down cls h.list.length h 0 n.toNat
  h.popLast cls

/-- Go `container/heap` `Fix`. Called in lru.go L54 and L69. -/
def OHeap.fix (cls : K → Option C) (h : OHeap K V) (i : Nat) : Go (OHeap K V) := do
  let (h', i') ← OHeap.down cls h.list.length h i h.list.length
  if i' > i then pure h' else OHeap.up cls (i + 1) h' i

/-- lru.go L12-20 `LRU`. -/
structure OLRU (K V : Type) where
  heap : OHeap K V
  maxSize : Int
  curSize : Int

/-- lru.go L22-32 `NewLRU`. -/
def OLRU.new (maxSize : Int) : OLRU K V := { heap := { list := [], index := [] }, maxSize, curSize := 0 }

/-- lru.go L45-59 `Invalidate`. -/
def OLRU.invalidate (cls : K → Option C) (c : OLRU K V) (k : K) : Go (OLRU K V) :=
  match look cls c.heap.index k with
  | none => .ok c
  | some i => do
    let e ← Go.idx c.heap.list i
    let l ← Go.set c.heap.list i { e with last := 0 }
    let h ← OHeap.fix cls { c.heap with list := l } i
    let (h, entry) ← h.pop cls
    pure { c with heap := { h with index := del cls h.index entry.key }, curSize := c.curSize - entry.size }

/-- lru.go L92-96: the eviction loop; `fuel` bounds the iterations (each one shortens the list). -/
def OLRU.evict (cls : K → Option C) : Nat → OLRU K V → Go (OLRU K V)
  | 0, c => if c.curSize > c.maxSize then .error .overflow else .ok c
  | fuel + 1, c =>
    if c.curSize > c.maxSize then do
      let (h, e) ← c.heap.pop cls
      OLRU.evict cls fuel { c with heap := h, curSize := c.curSize - e.size }
    else .ok c

/-- lru.go L61-98 `Get`, as in Model.lean. -/
def OLRU.get (cls : K → Option C) (c : OLRU K V) (now : Nat) (k : K) (o : Outcome V E) : Go (OLRU K V × Res V E) :=
  match look cls c.heap.index k with
  | some i => do
    let e ← Go.idx c.heap.list i
    let h ← c.heap.fix cls i
    pure ({ c with heap := h }, { val := e.val, hm := .hit, err := none, called := false })
  | none =>
    match o with
    | .fail v e => .ok (c, { val := v, hm := .err, err := some e, called := true })
    | .ok v size =>
      if size = 0 then .ok (c, { val := v, hm := .no, err := none, called := true })
      else do
        let h ← c.heap.push cls { key := k, val := v, last := now, size }
        let c' : OLRU K V := { c with heap := h, curSize := c.curSize + size }
        let c'' ← OLRU.evict cls (h.list.length + 1) c'
        pure (c'', { val := v, hm := .miss, err := none, called := true })

/-- Calls on the cache, one after the other: lru.go L45-98. -/
def OLRU.run (cls : K → Option C) (c : OLRU K V) : List (Op K V E) → Go (OLRU K V × List (Option (Res V E)))
  | [] => .ok (c, [])
  | .get now k o :: ops => do
    let (c, r) ← c.get cls now k o
    let (c, rs) ← OLRU.run cls c ops
    pure (c, some r :: rs)
  | .inv k :: ops => do
    let c ← c.invalidate cls k
    let (c, rs) ← OLRU.run cls c ops
    pure (c, none :: rs)

/-! ### Lemmas on the maps -/

theorem same_some {cls : K → Option C} {a b : K} : same cls a b = true ↔ ∃ c, cls a = some c ∧ cls b = some c := by
  unfold same
  cases cls a <;> cases cls b <;> simp [eq_comm]

theorem same_cls {cls : K → Option C} {k : K} {c : C} (h : cls k = some c) (a : K) : same cls a k = decide (cls a = some c) := by
  unfold same
  rw [h]
  cases cls a <;> simp

theorem same_odd {cls : K → Option C} {k : K} (h : cls k = none) (a : K) : same cls a k = false := by
  unfold same
  rw [h]
  cases cls a <;> rfl

/-- What a map holds for a class. -/
def lookC (cls : K → Option C) (m : GMap K A) (c : C) : Option A := (m.find? fun p => decide (cls p.1 = some c)).map (·.2)

theorem look_some {cls : K → Option C} {k : K} {c : C} (h : cls k = some c) (m : GMap K A) : look cls m k = lookC cls m c := by
  unfold look lookC
  simp only [same_cls h]

theorem look_odd {cls : K → Option C} {k : K} (h : cls k = none) (m : GMap K A) : look cls m k = none := by
  unfold look
  simp only [same_odd h]
  induction m <;> simp_all

theorem put_odd {cls : K → Option C} {k : K} (h : cls k = none) (m : GMap K A) (v : A) : put cls m k v = m ++ [(k, v)] := by
  unfold put
  simp only [same_odd h]
  simp

theorem del_odd {cls : K → Option C} {k : K} (h : cls k = none) (m : GMap K A) : del cls m k = m := by
  unfold del
  simp only [same_odd h]
  simp

theorem lookC_put (cls : K → Option C) (m : GMap K A) (k : K) (v : A) (c : C) :
    lookC cls (put cls m k v) c = if cls k = some c then some v else lookC cls m c := by
  cases hk : cls k with
  | none =>
    rw [put_odd hk]
    simp [lookC, hk, List.find?_append]
  | some d =>
    unfold put
    simp only [same_cls hk]
    split
    · next ha =>
      simp only [Option.some.injEq]
      induction m with
      | nil => simp at ha
      | cons p m ih =>
        by_cases hp : cls p.1 = some d
        · by_cases hd : d = c
          · subst hd
            simp [lookC, hp]
          · have : ¬ cls p.1 = some c := by rw [hp]; simpa using hd
            simp only [hd, if_false]
            simp only [lookC, List.map_cons, hp, decide_true, if_true, List.find?_cons, Option.some.injEq, hd, decide_false]
            clear ih ha
            induction m with
            | nil => rfl
            | cons q m ih =>
              by_cases hq : cls q.1 = some d
              · simp only [List.map_cons, hq, decide_true, if_true, List.find?_cons, Option.some.injEq, hd, decide_false]; exact ih
              · by_cases hqc : cls q.1 = some c
                · have hcd : ¬ c = d := fun h => hd h.symm
                  simp [hqc, hcd]
                · simp only [List.map_cons, hq, decide_false, List.find?_cons, hqc, Bool.false_eq_true, if_false]; exact ih
        · have ha' : (m.any fun p => decide (cls p.1 = some d)) = true := by simpa [hp] using ha
          have := ih ha'
          by_cases hpc : cls p.1 = some c
          · have hd : ¬ d = c := by intro h; subst h; exact hp hpc
            have hcd : ¬ c = d := fun h => hd h.symm
            simp [lookC, hpc, hd, hcd]
          · simp only [lookC, List.map_cons, hp, decide_false, List.find?_cons, hpc] at this ⊢
            simpa [hpc] using this
    · next ha =>
      simp only [Option.some.injEq]
      simp only [lookC, List.find?_append]
      by_cases hd : d = c
      · subst hd
        have : (m.find? fun p => decide (cls p.1 = some d)) = none := by
          rw [List.find?_eq_none]
          intro p hp hc
          exact ha (List.any_eq_true.2 ⟨p, hp, hc⟩)
        rw [this]
        simp [hk]
      · simp [hk, hd]

theorem lookC_del (cls : K → Option C) (m : GMap K A) (k : K) (c : C) :
    lookC cls (del cls m k) c = if cls k = some c then none else lookC cls m c := by
  cases hk : cls k with
  | none => rw [del_odd hk]; simp
  | some d =>
    unfold del
    simp only [same_cls hk, Option.some.injEq]
    unfold lookC
    rw [List.find?_filter]
    by_cases hd : d = c
    · subst hd
      rw [if_pos rfl]
      rw [List.find?_eq_none.2 (by intro p _; simp)]; rfl
    · rw [if_neg hd]
      congr 2
      funext p
      by_cases hp : cls p.1 = some c
      · have : ¬ c = d := fun h => hd h.symm
        simp [hp, this]
      · simp [hp]

/-- The entries of a map whose keys are odd. -/
def odds (cls : K → Option C) (m : GMap K A) : GMap K A := m.filter fun p => (cls p.1).isNone

theorem odds_put (cls : K → Option C) (m : GMap K A) (k : K) (v : A) :
    odds cls (put cls m k v) = if cls k = none then odds cls m ++ [(k, v)] else odds cls m := by
  cases hk : cls k with
  | none => rw [put_odd hk]; simp [odds, hk]
  | some d =>
    rw [if_neg (by simp)]
    unfold put
    simp only [same_cls hk]
    split
    · next ha =>
      clear ha
      induction m with
      | nil => rfl
      | cons p m ih =>
        by_cases hp : cls p.1 = some d
        · simp only [odds, List.map_cons, hp, decide_true, if_true, List.filter_cons, Option.isNone_some] at ih ⊢
          simpa using ih
        · cases hc : cls p.1 with
          | none => simp only [odds, List.map_cons, hc, List.filter_cons] at ih ⊢; simpa [hc] using ih
          | some e =>
            have : ¬ e = d := by intro h; subst h; exact hp hc
            simp only [odds, List.map_cons, hc, List.filter_cons] at ih ⊢; simpa [hc, this] using ih
    · simp [odds, hk]

theorem odds_del (cls : K → Option C) (m : GMap K A) (k : K) : odds cls (del cls m k) = odds cls m := by
  unfold odds del
  rw [List.filter_filter]
  congr 1
  funext p
  cases hp : cls p.1 with
  | none => simp [same, hp]
  | some e => simp

/-- The classes of the keys of a map, in the order of the entries. -/
def classes (cls : K → Option C) (m : GMap K A) : List C := m.filterMap fun p => cls p.1

theorem mem_classes {cls : K → Option C} {m : GMap K A} {c : C} : c ∈ classes cls m ↔ ∃ v, lookC cls m c = some v := by
  unfold classes lookC
  rw [List.mem_filterMap]
  constructor
  · rintro ⟨p, hp, hc⟩
    cases h : m.find? fun p => decide (cls p.1 = some c) with
    | none =>
      rw [List.find?_eq_none] at h
      exact absurd (decide_eq_true hc) (h p hp)
    | some q => exact ⟨q.2, rfl⟩
  · rintro ⟨v, hv⟩
    cases h : m.find? fun p => decide (cls p.1 = some c) with
    | none => rw [h] at hv; cases hv
    | some q => exact ⟨q, List.mem_of_find?_eq_some h, of_decide_eq_true (List.find?_some (p := fun p : K × A => decide (cls p.1 = some c)) h)⟩

theorem classes_put (cls : K → Option C) (m : GMap K A) (k : K) (v : A) (h : (classes cls m).Nodup) :
    (classes cls (put cls m k v)).Nodup := by
  cases hk : cls k with
  | none => rw [put_odd hk]; simpa [classes, hk] using h
  | some d =>
    unfold put
    simp only [same_cls hk]
    split
    · have : classes cls (m.map fun p => if decide (cls p.1 = some d) = true then (p.1, v) else p) = classes cls m := by
        unfold classes
        rw [List.filterMap_map]
        congr 1
        funext p
        simp only [Function.comp]
        split <;> rfl
      rw [this]; exact h
    · next ha =>
      simp only [classes, List.filterMap_append, List.filterMap_cons, hk, List.filterMap_nil]
      rw [List.nodup_append]
      refine ⟨h, by simp, ?_⟩
      intro a ha' b hb
      rw [List.mem_singleton] at hb
      subst hb
      intro hab
      subst hab
      obtain ⟨p, hp, hc⟩ := List.mem_filterMap.1 ha'
      exact ha (List.any_eq_true.2 ⟨p, hp, decide_eq_true hc⟩)

theorem classes_del (cls : K → Option C) (m : GMap K A) (k : K) (h : (classes cls m).Nodup) : (classes cls (del cls m k)).Nodup :=
  List.Nodup.sublist (List.Sublist.filterMap _ (List.filter_sublist)) h


/-! ### Every odd key is used once

The cache answers as the cache of Model.lean, over the classes and one fresh name for each use of an odd key. -/

/-- `k'` names `k`: its class, or any number if it is odd. -/
def Named (cls : K → Option C) (k : K) (k' : C ⊕ Nat) : Prop :=
  match cls k with
  | some c => k' = .inl c
  | none => ∃ n, k' = .inr n

/-- Entries that differ in the name of the key only. -/
def Lab (cls : K → Option C) (e : Entry K V) (e' : Entry (C ⊕ Nat) V) : Prop :=
  Named cls e.key e'.key ∧ e'.val = e.val ∧ e'.last = e.last ∧ e'.size = e.size

/-- Lists of such entries. -/
def Labs (cls : K → Option C) : List (Entry K V) → List (Entry (C ⊕ Nat) V) → Prop
  | [], [] => True
  | e :: l, e' :: l' => Lab cls e e' ∧ Labs cls l l'
  | _, _ => False

theorem Labs.length {cls : K → Option C} : ∀ {l : List (Entry K V)} {l' : List (Entry (C ⊕ Nat) V)}, Labs cls l l' → l.length = l'.length
  | [], [], _ => rfl
  | _ :: _, _ :: _, h => by simp [h.2.length]
  | [], _ :: _, h => h.elim
  | _ :: _, [], h => h.elim

theorem Labs.get {cls : K → Option C} : ∀ {l : List (Entry K V)} {l' : List (Entry (C ⊕ Nat) V)}, Labs cls l l' →
    ∀ {i : Nat} {e' : Entry (C ⊕ Nat) V}, l'[i]? = some e' → ∃ e, l[i]? = some e ∧ Lab cls e e'
  | [], [], _, _, _, h => by simp at h
  | e :: _, a' :: _, h, 0, e', hi => by simp at hi; subst hi; exact ⟨e, rfl, h.1⟩
  | _ :: _, _ :: _, h, i + 1, e', hi => by simpa using h.2.get (i := i) (by simpa using hi)
  | [], _ :: _, h, _, _, _ => h.elim
  | _ :: _, [], h, _, _, _ => h.elim

theorem Labs.set {cls : K → Option C} {e : Entry K V} {e' : Entry (C ⊕ Nat) V} (he : Lab cls e e') :
    ∀ {l : List (Entry K V)} {l' : List (Entry (C ⊕ Nat) V)}, Labs cls l l' → ∀ (i : Nat), Labs cls (l.set i e) (l'.set i e')
  | [], [], _, _ => trivial
  | _ :: _, _ :: _, h, 0 => ⟨he, h.2⟩
  | _ :: _, _ :: _, h, i + 1 => ⟨h.1, h.2.set he i⟩
  | [], _ :: _, h, _ => h.elim
  | _ :: _, [], h, _ => h.elim

theorem Labs.append {cls : K → Option C} {e : Entry K V} {e' : Entry (C ⊕ Nat) V} (he : Lab cls e e') :
    ∀ {l : List (Entry K V)} {l' : List (Entry (C ⊕ Nat) V)}, Labs cls l l' → Labs cls (l ++ [e]) (l' ++ [e'])
  | [], [], _ => ⟨he, trivial⟩
  | _ :: _, _ :: _, h => ⟨h.1, h.2.append he⟩
  | [], _ :: _, h => h.elim
  | _ :: _, [], h => h.elim

theorem Labs.take {cls : K → Option C} : ∀ {l : List (Entry K V)} {l' : List (Entry (C ⊕ Nat) V)}, Labs cls l l' →
    ∀ (n : Nat), Labs cls (l.take n) (l'.take n)
  | [], [], _, n => by simp [Labs]
  | _ :: _, _ :: _, _, 0 => trivial
  | _ :: _, _ :: _, h, n + 1 => ⟨h.1, h.2.take n⟩
  | [], _ :: _, h, _ => h.elim
  | _ :: _, [], h, _ => h.elim

theorem idx_ok {α : Type} {l : List α} {i : Int} {a : α} (h : Go.idx l i = .ok a) : 0 ≤ i ∧ l[i.toNat]? = some a := by
  unfold Go.idx at h
  split at h
  · next h0 =>
    refine ⟨h0, ?_⟩
    split at h
    · next hx => rw [hx]; cases h; rfl
    · cases h
  · cases h

theorem idx_of {α : Type} {l : List α} {i : Int} {a : α} (h0 : 0 ≤ i) (h : l[i.toNat]? = some a) : Go.idx l i = .ok a := by
  unfold Go.idx
  rw [if_pos h0, h]

theorem Labs.idx {cls : K → Option C} {l : List (Entry K V)} {l' : List (Entry (C ⊕ Nat) V)} (h : Labs cls l l') {i : Int}
    {e' : Entry (C ⊕ Nat) V} (hi : Go.idx l' i = .ok e') : ∃ e, Go.idx l i = .ok e ∧ Lab cls e e' := by
  obtain ⟨h0, hg⟩ := idx_ok hi
  obtain ⟨e, he, hl⟩ := h.get hg
  exact ⟨e, idx_of h0 he, hl⟩

theorem Labs.gset {cls : K → Option C} {l : List (Entry K V)} {l' : List (Entry (C ⊕ Nat) V)} (h : Labs cls l l') {i : Int}
    {e : Entry K V} {e' : Entry (C ⊕ Nat) V} (he : Lab cls e e') {m' : List (Entry (C ⊕ Nat) V)} (hi : Go.set l' i e' = .ok m') :
    ∃ m, Go.set l i e = .ok m ∧ Labs cls m m' := by
  unfold Go.set at hi ⊢
  rw [h.length]
  split at hi
  · next hc => rw [if_pos hc]; cases hi; exact ⟨_, rfl, h.set he _⟩
  · cases hi

theorem bind_ok {α β : Type} {x : Go α} {f : α → Go β} {b : β} (h : (x >>= f) = .ok b) : ∃ a, x = .ok a ∧ f a = .ok b := by
  cases x with
  | error e => cases h
  | ok a => exact ⟨a, rfl, h⟩

theorem Labs.gswap {cls : K → Option C} {l : List (Entry K V)} {l' : List (Entry (C ⊕ Nat) V)} (h : Labs cls l l') {i j : Int}
    {m' : List (Entry (C ⊕ Nat) V)} (hi : Go.swap l' i j = .ok m') : ∃ m, Go.swap l i j = .ok m ∧ Labs cls m m' := by
  unfold Go.swap at hi ⊢
  obtain ⟨x', hx', hi⟩ := bind_ok hi
  obtain ⟨y', hy', hi⟩ := bind_ok hi
  obtain ⟨n', hn', hi⟩ := bind_ok hi
  obtain ⟨x, hx, lx⟩ := h.idx hx'
  obtain ⟨y, hy, ly⟩ := h.idx hy'
  obtain ⟨n, hn, ln⟩ := h.gset ly hn'
  obtain ⟨m, hm, lm⟩ := ln.gset lx hi
  refine ⟨m, ?_, lm⟩
  rw [hx, hy]
  simp only [bind, Except.bind]
  rw [hn]
  exact hm

/-- The heaps agree up to the names of the keys, and the indexes on the classes. -/
def Sim (cls : K → Option C) (h : OHeap K V) (h' : Heap (C ⊕ Nat) V) : Prop :=
  Labs cls h.list h'.list ∧ ∀ c, lookC cls h.index c = h'.index (.inl c)

theorem sim_put {cls : K → Option C} {m : GMap K Nat} {m' : C ⊕ Nat → Option Nat} (h : ∀ c, lookC cls m c = m' (.inl c)) {k : K} {k' : C ⊕ Nat}
    (hk : Named cls k k') (i : Nat) : ∀ c, lookC cls (put cls m k i) c = upd m' k' (some i) (.inl c) := by
  intro c
  rw [lookC_put]
  unfold Named at hk
  unfold upd
  split at hk
  · next d hd => subst hk; rw [hd, h]; simp only [Option.some.injEq, Sum.inl.injEq, eq_comm]
  · next hd => obtain ⟨n, rfl⟩ := hk; rw [hd, h]; simp

theorem sim_del {cls : K → Option C} {m : GMap K Nat} {m' : C ⊕ Nat → Option Nat} (h : ∀ c, lookC cls m c = m' (.inl c)) {k : K} {k' : C ⊕ Nat}
    (hk : Named cls k k') : ∀ c, lookC cls (del cls m k) c = upd m' k' none (.inl c) := by
  intro c
  rw [lookC_del]
  unfold Named at hk
  unfold upd
  split at hk
  · next d hd => subst hk; rw [hd, h]; simp only [Option.some.injEq, Sum.inl.injEq, eq_comm]
  · next hd => obtain ⟨n, rfl⟩ := hk; rw [hd, h]; simp

theorem sim_less {cls : K → Option C} {h : OHeap K V} {h' : Heap (C ⊕ Nat) V} (hs : Sim cls h h') {i j : Nat} {b : Bool} (hb : h'.less i j = .ok b) :
    h.less i j = .ok b := by
  unfold Heap.less at hb
  obtain ⟨a', ha', hb⟩ := bind_ok hb
  obtain ⟨b', hb', hb⟩ := bind_ok hb
  obtain ⟨a, ha, la⟩ := hs.1.idx ha'
  obtain ⟨d, hd, ld⟩ := hs.1.idx hb'
  unfold OHeap.less
  rw [ha, hd]
  rw [la.2.2.1, ld.2.2.1] at hb
  exact hb

theorem sim_swap {cls : K → Option C} {h : OHeap K V} {h' : Heap (C ⊕ Nat) V} (hs : Sim cls h h') {i j : Int} {g' : Heap (C ⊕ Nat) V}
    (hg : h'.swap i j = .ok g') : ∃ g, h.swap cls i j = .ok g ∧ Sim cls g g' := by
  unfold Heap.swap at hg
  obtain ⟨l', hl', hg⟩ := bind_ok hg
  obtain ⟨a', ha', hg⟩ := bind_ok hg
  obtain ⟨b', hb', hg⟩ := bind_ok hg
  obtain ⟨l, hl, ll⟩ := hs.1.gswap hl'
  obtain ⟨a, ha, la⟩ := ll.idx ha'
  obtain ⟨b, hb, lb⟩ := ll.idx hb'
  cases hg
  refine ⟨⟨l, put cls (put cls h.index a.key i.toNat) b.key j.toNat⟩, ?_, ll, ?_⟩
  · unfold OHeap.swap
    rw [hl]
    simp only [bind, Except.bind]
    rw [ha, hb]
    rfl
  · exact sim_put (sim_put hs.2 la.1 _) lb.1 _

theorem sim_popLast {cls : K → Option C} {h : OHeap K V} {h' : Heap (C ⊕ Nat) V} (hs : Sim cls h h') {g' : Heap (C ⊕ Nat) V} {e' : Entry (C ⊕ Nat) V}
    (hg : h'.popLast = .ok (g', e')) : ∃ g e, h.popLast cls = .ok (g, e) ∧ Sim cls g g' ∧ Lab cls e e' := by
  unfold Heap.popLast at hg
  obtain ⟨a', ha', hg⟩ := bind_ok hg
  obtain ⟨l', hl', hg⟩ := bind_ok hg
  obtain ⟨a, ha, la⟩ := hs.1.idx ha'
  cases hg
  unfold OHeap.popLast
  rw [hs.1.length, ha]
  unfold Go.slice at hl' ⊢
  rw [hs.1.length]
  split at hl'
  · next hc =>
    cases hl'
    rw [if_pos hc]
    refine ⟨_, a, rfl, ⟨?_, sim_del hs.2 la.1⟩, la⟩
    exact hs.1.take _
  · cases hl'

theorem sim_up {cls : K → Option C} : ∀ (fuel : Nat) {h : OHeap K V} {h' : Heap (C ⊕ Nat) V}, Sim cls h h' → ∀ {j : Nat} {g' : Heap (C ⊕ Nat) V},
    h'.up fuel j = .ok g' → ∃ g, h.up cls fuel j = .ok g ∧ Sim cls g g'
  | 0, _, _, _, _, _, hg => by cases hg
  | fuel + 1, h, h', hs, j, g', hg => by
    unfold Heap.up at hg
    unfold OHeap.up
    simp only at hg ⊢
    split at hg
    · next hc => rw [if_pos hc]; cases hg; exact ⟨_, rfl, hs⟩
    · next hc =>
      rw [if_neg hc]
      obtain ⟨b, hb, hg⟩ := bind_ok hg
      rw [sim_less hs hb]
      simp only [bind, Except.bind]
      split at hg
      · next hn => rw [if_pos hn]; cases hg; exact ⟨_, rfl, hs⟩
      · next hn =>
        rw [if_neg hn]
        obtain ⟨x', hx', hg⟩ := bind_ok hg
        obtain ⟨x, hx, sx⟩ := sim_swap hs hx'
        rw [hx]
        exact sim_up fuel sx hg

theorem sim_small {cls : K → Option C} {h : OHeap K V} {h' : Heap (C ⊕ Nat) V} (hs : Sim cls h h') {i n j : Nat}
    (hg : h'.smallerChild i n = .ok j) : h.smallerChild i n = .ok j := by
  unfold Heap.smallerChild at hg
  unfold OHeap.smallerChild
  simp only at hg ⊢
  split at hg
  · next hc =>
    rw [if_pos hc]
    obtain ⟨b, hb, hg⟩ := bind_ok hg
    rw [sim_less hs hb]
    exact hg
  · next hc => rw [if_neg hc]; exact hg

theorem sim_down {cls : K → Option C} : ∀ (fuel : Nat) {h : OHeap K V} {h' : Heap (C ⊕ Nat) V}, Sim cls h h' → ∀ {i n p : Nat} {g' : Heap (C ⊕ Nat) V},
    h'.down fuel i n = .ok (g', p) → ∃ g, h.down cls fuel i n = .ok (g, p) ∧ Sim cls g g'
  | 0, _, _, _, _, _, _, _, hg => by cases hg
  | fuel + 1, h, h', hs, i, n, p, g', hg => by
    unfold Heap.down at hg
    unfold OHeap.down
    simp only at hg ⊢
    split at hg
    · next hc => rw [if_pos hc]; cases hg; exact ⟨_, rfl, hs⟩
    · next hc =>
      rw [if_neg hc]
      obtain ⟨j, hj, hg⟩ := bind_ok hg
      rw [sim_small hs hj]
      simp only [bind, Except.bind]
      obtain ⟨b, hb, hg⟩ := bind_ok hg
      rw [sim_less hs hb]
      simp only
      split at hg
      · next hn => rw [if_pos hn]; cases hg; exact ⟨_, rfl, hs⟩
      · next hn =>
        rw [if_neg hn]
        obtain ⟨x', hx', hg⟩ := bind_ok hg
        obtain ⟨x, hx, sx⟩ := sim_swap hs hx'
        rw [hx]
        exact sim_down fuel sx hg

theorem sim_push {cls : K → Option C} {h : OHeap K V} {h' : Heap (C ⊕ Nat) V} (hs : Sim cls h h') {e : Entry K V} {e' : Entry (C ⊕ Nat) V} (he : Lab cls e e')
    {g' : Heap (C ⊕ Nat) V} (hg : h'.push e' = .ok g') : ∃ g, h.push cls e = .ok g ∧ Sim cls g g' := by
  unfold Heap.push at hg
  unfold OHeap.push
  have s : Sim cls (h.pushLast cls e) (h'.pushLast e') := by
    refine ⟨hs.1.append he, ?_⟩
    simp only [OHeap.pushLast, Heap.pushLast, hs.1.length]
    exact sim_put hs.2 he.1 _
  simp only at hg ⊢
  rw [s.1.length]
  exact sim_up _ s hg

theorem sim_pop {cls : K → Option C} {h : OHeap K V} {h' : Heap (C ⊕ Nat) V} (hs : Sim cls h h') {g' : Heap (C ⊕ Nat) V} {e' : Entry (C ⊕ Nat) V}
    (hg : h'.pop = .ok (g', e')) : ∃ g e, h.pop cls = .ok (g, e) ∧ Sim cls g g' ∧ Lab cls e e' := by
  unfold Heap.pop at hg
  unfold OHeap.pop
  simp only at hg ⊢
  rw [hs.1.length]
  obtain ⟨x', hx', hg⟩ := bind_ok hg
  obtain ⟨x, hx, sx⟩ := sim_swap hs hx'
  rw [hx]
  simp only [bind, Except.bind]
  obtain ⟨⟨y', p⟩, hy', hg⟩ := bind_ok hg
  rw [sx.1.length]
  obtain ⟨y, hy, sy⟩ := sim_down _ sx hy'
  rw [hy]
  exact sim_popLast sy hg

theorem sim_fix {cls : K → Option C} {h : OHeap K V} {h' : Heap (C ⊕ Nat) V} (hs : Sim cls h h') {i : Nat} {g' : Heap (C ⊕ Nat) V}
    (hg : h'.fix i = .ok g') : ∃ g, h.fix cls i = .ok g ∧ Sim cls g g' := by
  unfold Heap.fix at hg
  unfold OHeap.fix
  rw [hs.1.length]
  obtain ⟨⟨y', p⟩, hy', hg⟩ := bind_ok hg
  obtain ⟨y, hy, sy⟩ := sim_down _ hs hy'
  rw [hy]
  simp only [bind, Except.bind]
  simp only at hg
  split at hg
  · next hc => rw [if_pos hc]; cases hg; exact ⟨_, rfl, sy⟩
  · next hc => rw [if_neg hc]; exact sim_up _ sy hg

/-- The caches agree up to the names of the keys. -/
def CSim (cls : K → Option C) (c : OLRU K V) (c' : LRU (C ⊕ Nat) V) : Prop :=
  Sim cls c.heap c'.heap ∧ c.maxSize = c'.maxSize ∧ c.curSize = c'.curSize

theorem sim_evict {cls : K → Option C} : ∀ (fuel : Nat) {c : OLRU K V} {c' : LRU (C ⊕ Nat) V}, CSim cls c c' → ∀ {d' : LRU (C ⊕ Nat) V},
    c'.evict fuel = .ok d' → ∃ d, c.evict cls fuel = .ok d ∧ CSim cls d d'
  | 0, c, c', hs, d', hd => by
    unfold LRU.evict at hd
    unfold OLRU.evict
    rw [hs.2.1, hs.2.2]
    split at hd
    · cases hd
    · next hc => rw [if_neg hc]; cases hd; exact ⟨_, rfl, hs⟩
  | fuel + 1, c, c', hs, d', hd => by
    unfold LRU.evict at hd
    unfold OLRU.evict
    split at hd
    · next hc =>
      rw [if_pos (by rw [hs.2.1, hs.2.2]; exact hc)]
      obtain ⟨⟨g', e'⟩, hg', hd⟩ := bind_ok hd
      obtain ⟨g, e, hg, sg, le⟩ := sim_pop hs.1 hg'
      rw [hg]
      simp only [bind, Except.bind]
      exact sim_evict fuel (c := ⟨g, c.maxSize, c.curSize - e.size⟩) (c' := ⟨g', c'.maxSize, c'.curSize - e'.size⟩) ⟨sg, hs.2.1, by simp only [le.2.2.2, hs.2.2]⟩ hd
    · next hc => rw [if_neg (by rw [hs.2.1, hs.2.2]; exact hc)]; cases hd; exact ⟨_, rfl, hs⟩

/-- A name for a use of a key: its class, or a number not used before. -/
def name (cls : K → Option C) (n : Nat) (k : K) : C ⊕ Nat :=
  match cls k with
  | some c => .inl c
  | none => .inr n

theorem named (cls : K → Option C) (n : Nat) (k : K) : Named cls k (name cls n k) := by
  unfold Named name
  cases cls k with
  | some c => rfl
  | none => exact ⟨n, rfl⟩

/-- The index answers for the key what the other answers for its name, if the name is new. -/
theorem sim_look {cls : K → Option C} {h : OHeap K V} {h' : Heap (C ⊕ Nat) V} (hs : Sim cls h h') (n : Nat) (hn : h'.index (.inr n) = none) (k : K) :
    look cls h.index k = h'.index (name cls n k) := by
  unfold name
  cases hk : cls k with
  | some c => rw [look_some hk]; exact hs.2 c
  | none => rw [look_odd hk]; exact hn.symm

theorem sim_get {cls : K → Option C} {c : OLRU K V} {c' : LRU (C ⊕ Nat) V} (hs : CSim cls c c') (n : Nat) (hn : c'.heap.index (.inr n) = none)
    (now : Nat) (k : K) (o : Outcome V E) {d' : LRU (C ⊕ Nat) V} {r : Res V E} (hd : c'.get now (name cls n k) o = .ok (d', r)) :
    ∃ d, c.get cls now k o = .ok (d, r) ∧ CSim cls d d' := by
  unfold LRU.get at hd
  unfold OLRU.get
  rw [sim_look hs.1 n hn]
  split at hd
  · next i hi =>
    rw [hi]
    simp only
    obtain ⟨e', he', hd⟩ := bind_ok hd
    obtain ⟨e, he, le⟩ := hs.1.1.idx he'
    rw [he]
    simp only [bind, Except.bind]
    obtain ⟨g', hg', hd⟩ := bind_ok hd
    obtain ⟨g, hg, sg⟩ := sim_fix hs.1 hg'
    rw [hg]
    cases hd
    rw [le.2.1]
    exact ⟨_, rfl, sg, hs.2⟩
  · next hi =>
    rw [hi]
    simp only
    cases o with
    | fail v e => cases hd; exact ⟨_, rfl, hs⟩
    | ok v size =>
      simp only at hd
      split at hd
      · next hz => simp only [if_pos hz]; cases hd; exact ⟨_, rfl, hs⟩
      · next hz =>
        simp only [if_neg hz]
        obtain ⟨g', hg', hd⟩ := bind_ok hd
        obtain ⟨g, hg, sg⟩ := sim_push (e := ⟨k, _, now, _⟩) hs.1 ⟨named cls n k, rfl, rfl, rfl⟩ hg'
        rw [hg]
        simp only [bind, Except.bind]
        obtain ⟨x', hx', hd⟩ := bind_ok hd
        rw [sg.1.length]
        obtain ⟨x, hx, sx⟩ := sim_evict (c := ⟨g, c.maxSize, c.curSize + size⟩) (c' := ⟨g', c'.maxSize, c'.curSize + size⟩) _ ⟨sg, hs.2.1, by simp only [hs.2.2]⟩ hx'
        rw [hx]
        cases hd
        exact ⟨_, rfl, sx⟩

theorem sim_inv {cls : K → Option C} {c : OLRU K V} {c' : LRU (C ⊕ Nat) V} (hs : CSim cls c c') (n : Nat) (hn : c'.heap.index (.inr n) = none)
    (k : K) {d' : LRU (C ⊕ Nat) V} (hd : c'.invalidate (name cls n k) = .ok d') :
    ∃ d, c.invalidate cls k = .ok d ∧ CSim cls d d' := by
  unfold LRU.invalidate at hd
  unfold OLRU.invalidate
  rw [sim_look hs.1 n hn]
  split at hd
  · next hi => rw [hi]; cases hd; exact ⟨_, rfl, hs⟩
  · next i hi =>
    rw [hi]
    simp only
    obtain ⟨e', he', hd⟩ := bind_ok hd
    obtain ⟨e, he, le⟩ := hs.1.1.idx he'
    rw [he]
    simp only [bind, Except.bind]
    obtain ⟨l', hl', hd⟩ := bind_ok hd
    obtain ⟨l, hl, ll⟩ := hs.1.1.gset (e := { e with last := 0 }) (e' := { e' with last := 0 }) ⟨le.1, le.2.1, rfl, le.2.2.2⟩ hl'
    rw [hl]
    obtain ⟨g', hg', hd⟩ := bind_ok hd
    obtain ⟨g, hg, sg⟩ := sim_fix (h := ⟨l, c.heap.index⟩) (h' := ⟨l', c'.heap.index⟩) ⟨ll, hs.1.2⟩ hg'
    simp only
    rw [hg]
    obtain ⟨⟨x', a'⟩, hx', hd⟩ := bind_ok hd
    obtain ⟨x, a, hx, sx, la⟩ := sim_pop sg hx'
    simp only
    rw [hx]
    cases hd
    refine ⟨_, rfl, ⟨sx.1, ?_⟩, hs.2.1, ?_⟩
    · exact sim_del sx.2 la.1
    · simp only; rw [hs.2.2, la.2.2.2]

/-- The calls, each use of an odd key under a name of its own. -/
def fresh (cls : K → Option C) : Nat → List (Op K V E) → List (Op (C ⊕ Nat) V E)
  | _, [] => []
  | n, .get now k o :: ops => .get now (name cls n k) o :: fresh cls (n + 1) ops
  | n, .inv k :: ops => .inv (name cls n k) :: fresh cls (n + 1) ops

theorem fresh_valid (cls : K → Option C) : ∀ (ops : List (Op K V E)) (n : Nat), (∀ op ∈ ops, op.Valid) → ∀ op ∈ fresh cls n ops, op.Valid
  | [], _, _ => by simp [fresh]
  | .get now k o :: ops, n, h => by
    intro op hop
    simp only [fresh, List.mem_cons] at hop
    rcases hop with rfl | hop
    · have := h (.get now k o) (by simp)
      cases o <;> exact this
    · exact fresh_valid cls ops _ (fun op ho => h op (by simp [ho])) op hop
  | .inv k :: ops, n, h => by
    intro op hop
    simp only [fresh, List.mem_cons] at hop
    rcases hop with rfl | hop
    · trivial
    · exact fresh_valid cls ops _ (fun op ho => h op (by simp [ho])) op hop

/-- The numbers that name odd keys in the list are below `n`. -/
def Below (n : Nat) (l : List (Entry (C ⊕ Nat) V)) : Prop := ∀ e ∈ l, ∀ m, e.key = .inr m → m < n

theorem below_none {n : Nat} {c : LRU (C ⊕ Nat) V} (inv : Inv c) (hb : Below n c.heap.list) : c.heap.index (.inr n) = none := by
  rw [index_none_iff c.heap inv.wf.index]
  intro e he hk
  exact Nat.lt_irrefl _ (hb e he n hk)

theorem name_below (cls : K → Option C) (n : Nat) (k : K) (m : Nat) (h : name cls n k = .inr m) : m < n + 1 := by
  unfold name at h
  split at h
  · cases h
  · cases h; omega

theorem sim_run {cls : K → Option C} : ∀ (ops : List (Op K V E)) {c : OLRU K V} {c' : LRU (C ⊕ Nat) V} (n : Nat), CSim cls c c' → Inv c' →
    0 ≤ c'.maxSize → c'.curSize ≤ c'.maxSize → Below n c'.heap.list → (∀ op ∈ ops, op.Valid) →
    ∃ d d' rs, c.run cls ops = .ok (d, rs) ∧ c'.run (fresh cls n ops) = .ok (d', rs) ∧ CSim cls d d' ∧ Inv d' ∧ d'.maxSize = c'.maxSize ∧
      d'.curSize ≤ d'.maxSize ∧ Below (n + ops.length) d'.heap.list
  | [], c, c', n, hs, inv, _, hc, hb, _ => ⟨c, c', [], rfl, rfl, hs, inv, rfl, hc, hb⟩
  | .get now k o :: ops, c, c', n, hs, inv, h0, hc, hb, hv => by
    have hval : (Op.get now (name cls n k) o).Valid := by
      have := hv (.get now k o) (by simp)
      cases o <;> exact this
    obtain ⟨d', r, hg, inv', hm, hle⟩ := get_inv c' inv h0 hc now (name cls n k) o hval
    obtain ⟨d, hd, sd⟩ := sim_get hs n (below_none inv hb) now k o hg
    have hb' : Below (n + 1) d'.heap.list := by
      have hbn : Below (n + 1) c'.heap.list := fun e he m hm => Nat.lt_succ_of_lt (hb e he m hm)
      by_cases hk : ∃ e ∈ c'.heap.list, e.key = name cls n k
      · obtain ⟨e, he, hek⟩ := hk
        rw [get_hit c' inv now _ o e he hek] at hg
        cases hg
        exact hbn
      · have hk' : ∀ e ∈ c'.heap.list, e.key ≠ name cls n k := fun e he hek => hk ⟨e, he, hek⟩
        cases o with
        | fail v e =>
          unfold LRU.get at hg
          rw [(index_none_iff c'.heap inv.wf.index _).2 hk'] at hg
          cases hg
          exact hbn
        | ok v size =>
          by_cases hz : size = 0
          · unfold LRU.get at hg
            rw [(index_none_iff c'.heap inv.wf.index _).2 hk'] at hg
            simp only [if_pos hz] at hg
            cases hg
            exact hbn
          · simp only [Op.Valid] at hval
            obtain ⟨x, ev, hx, _, _, _, hp, _⟩ := get_miss (E := E) c' inv h0 now hval.1 (name cls n k) v size (by omega) hk'
            rw [hg] at hx
            cases hx
            intro e he m hm
            have : e ∈ ev ++ d'.heap.list := List.mem_append_right _ he
            rcases List.mem_cons.1 (hp.mem_iff.2 this) with rfl | h
            · exact name_below cls n k m hm
            · exact hbn e h m hm
    obtain ⟨x, x', rs, hx, hx', sx, ix, hmx, hlx, hbx⟩ := sim_run ops (n + 1) sd inv' (by omega) hle hb' (fun op h => hv op (by simp [h]))
    refine ⟨x, x', some r :: rs, ?_, ?_, sx, ix, by omega, hlx, ?_⟩
    · unfold OLRU.run; rw [hd]; simp only [bind, Except.bind]; rw [hx]; rfl
    · simp only [fresh]; unfold LRU.run; rw [hg]; simp only [bind, Except.bind]; rw [hx']; rfl
    · simp only [List.length_cons]
      rw [show n + (ops.length + 1) = n + 1 + ops.length by omega]
      exact hbx
  | .inv k :: ops, c, c', n, hs, inv, h0, hc, hb, hv => by
    obtain ⟨d', hg, inv', hm, hle⟩ := invalidate_inv c' inv hc (name cls n k)
    obtain ⟨d, hd, sd⟩ := sim_inv hs n (below_none inv hb) k hg
    have hb' : Below (n + 1) d'.heap.list := by
      obtain ⟨y, hy, _, _, hp⟩ := invalidate_spec c' inv (name cls n k)
      rw [hg] at hy
      cases hy
      intro e he m hm
      exact Nat.lt_succ_of_lt (hb e (List.mem_filter.1 (hp.mem_iff.1 he)).1 m hm)
    obtain ⟨x, x', rs, hx, hx', sx, ix, hmx, hlx, hbx⟩ := sim_run ops (n + 1) sd inv' (by omega) hle hb' (fun op h => hv op (by simp [h]))
    refine ⟨x, x', none :: rs, ?_, ?_, sx, ix, by omega, hlx, ?_⟩
    · unfold OLRU.run; rw [hd]; simp only [bind, Except.bind]; rw [hx]; rfl
    · simp only [fresh]; unfold LRU.run; rw [hg]; simp only [bind, Except.bind]; rw [hx']; rfl
    · simp only [List.length_cons]
      rw [show n + (ops.length + 1) = n + 1 + ops.length by omega]
      exact hbx

theorem sim_new (cls : K → Option C) (maxS : Int) : CSim cls (OLRU.new maxS : OLRU K V) (LRU.new maxS) :=
  ⟨⟨trivial, fun _ => rfl⟩, rfl, rfl⟩

/-! ### What the index keeps -/

/-- What a part of a call does to the index: it loses no entry of an odd key, holds no class twice, and takes its keys from the
list. -/
structure Step (cls : K → Option C) (h g : OHeap K V) : Prop where
  odds : (odds cls h.index).length ≤ (odds cls g.index).length
  nodup : (classes cls h.index).Nodup → (classes cls g.index).Nodup
  keys : ∀ Q : K → Prop, (∀ e ∈ h.list, Q e.key) ∧ (∀ p ∈ h.index, Q p.1) → (∀ e ∈ g.list, Q e.key) ∧ (∀ p ∈ g.index, Q p.1)

theorem Step.refl (cls : K → Option C) (h : OHeap K V) : Step cls h h := ⟨Nat.le_refl _, id, fun _ => id⟩

theorem Step.trans {cls : K → Option C} {a b c : OHeap K V} (h1 : Step cls a b) (h2 : Step cls b c) : Step cls a c :=
  ⟨Nat.le_trans h1.odds h2.odds, h2.nodup ∘ h1.nodup, fun Q => h2.keys Q ∘ h1.keys Q⟩

theorem odds_put_le (cls : K → Option C) (m : GMap K A) (k : K) (v : A) : (odds cls m).length ≤ (odds cls (put cls m k v)).length := by
  rw [odds_put]
  split <;> simp

theorem keys_put {cls : K → Option C} {m : GMap K A} {k : K} {v : A} {Q : K → Prop} (h : ∀ p ∈ m, Q p.1) (hk : Q k) :
    ∀ p ∈ put cls m k v, Q p.1 := by
  unfold put
  split
  · intro p hp
    obtain ⟨q, hq, rfl⟩ := List.mem_map.1 hp
    split <;> exact h q hq
  · intro p hp
    rcases List.mem_append.1 hp with hp | hp
    · exact h p hp
    · rw [List.mem_singleton] at hp; subst hp; exact hk

theorem idx_mem {α : Type} {l : List α} {i : Int} {a : α} (h : Go.idx l i = .ok a) : a ∈ l :=
  List.mem_iff_getElem?.2 ⟨_, (idx_ok h).2⟩

theorem gset_mem {α : Type} {l m : List α} {i : Int} {x : α} (h : Go.set l i x = .ok m) : ∀ y ∈ m, y ∈ l ∨ y = x := by
  unfold Go.set at h
  split at h
  · cases h; intro y hy; exact List.mem_or_eq_of_mem_set hy
  · cases h

theorem gswap_mem {α : Type} {l m : List α} {i j : Int} (h : Go.swap l i j = .ok m) : ∀ y ∈ m, y ∈ l := by
  unfold Go.swap at h
  obtain ⟨x, hx, h⟩ := bind_ok h
  obtain ⟨y, hy, h⟩ := bind_ok h
  obtain ⟨n, hn, h⟩ := bind_ok h
  intro z hz
  rcases gset_mem h z hz with hz | rfl
  · rcases gset_mem hn z hz with hz | rfl
    · exact hz
    · exact idx_mem hy
  · exact idx_mem hx

theorem step_swap {cls : K → Option C} {h g : OHeap K V} {i j : Int} (hg : h.swap cls i j = .ok g) : Step cls h g := by
  unfold OHeap.swap at hg
  obtain ⟨l, hl, hg⟩ := bind_ok hg
  obtain ⟨a, ha, hg⟩ := bind_ok hg
  obtain ⟨b, hb, hg⟩ := bind_ok hg
  cases hg
  refine ⟨Nat.le_trans (odds_put_le _ _ _ _) (odds_put_le _ _ _ _), fun hn => classes_put _ _ _ _ (classes_put _ _ _ _ hn), ?_⟩
  rintro Q ⟨h1, h2⟩
  have hl' : ∀ e ∈ l, Q e.key := fun e he => h1 e (gswap_mem hl e he)
  exact ⟨hl', keys_put (keys_put h2 (hl' a (idx_mem ha))) (hl' b (idx_mem hb))⟩

theorem step_popLast {cls : K → Option C} {h g : OHeap K V} {e : Entry K V} (hg : h.popLast cls = .ok (g, e)) : Step cls h g := by
  unfold OHeap.popLast at hg
  obtain ⟨a, ha, hg⟩ := bind_ok hg
  obtain ⟨l, hl, hg⟩ := bind_ok hg
  cases hg
  refine ⟨by simp only [odds_del]; exact Nat.le_refl _, classes_del _ _ _, ?_⟩
  rintro Q ⟨h1, h2⟩
  refine ⟨?_, fun p hp => h2 p (List.mem_filter.1 hp).1⟩
  unfold Go.slice at hl
  split at hl
  · cases hl
    intro x hx
    exact h1 x (List.mem_of_mem_take (List.mem_of_mem_drop hx))
  · cases hl

theorem step_up {cls : K → Option C} : ∀ (fuel : Nat) {h g : OHeap K V} {j : Nat}, h.up cls fuel j = .ok g → Step cls h g
  | 0, _, _, _, hg => by cases hg
  | fuel + 1, h, g, j, hg => by
    unfold OHeap.up at hg
    simp only at hg
    split at hg
    · cases hg; exact Step.refl _ _
    · obtain ⟨b, hb, hg⟩ := bind_ok hg
      split at hg
      · cases hg; exact Step.refl _ _
      · obtain ⟨x, hx, hg⟩ := bind_ok hg
        exact (step_swap hx).trans (step_up fuel hg)

theorem step_down {cls : K → Option C} : ∀ (fuel : Nat) {h g : OHeap K V} {i n p : Nat}, h.down cls fuel i n = .ok (g, p) → Step cls h g
  | 0, _, _, _, _, _, hg => by cases hg
  | fuel + 1, h, g, i, n, p, hg => by
    unfold OHeap.down at hg
    simp only at hg
    split at hg
    · cases hg; exact Step.refl _ _
    · obtain ⟨j, hj, hg⟩ := bind_ok hg
      obtain ⟨b, hb, hg⟩ := bind_ok hg
      split at hg
      · cases hg; exact Step.refl _ _
      · obtain ⟨x, hx, hg⟩ := bind_ok hg
        exact (step_swap hx).trans (step_down fuel hg)

theorem step_pop {cls : K → Option C} {h g : OHeap K V} {e : Entry K V} (hg : h.pop cls = .ok (g, e)) : Step cls h g := by
  unfold OHeap.pop at hg
  obtain ⟨x, hx, hg⟩ := bind_ok hg
  obtain ⟨⟨y, p⟩, hy, hg⟩ := bind_ok hg
  exact (step_swap hx).trans ((step_down _ hy).trans (step_popLast hg))

theorem step_fix {cls : K → Option C} {h g : OHeap K V} {i : Nat} (hg : h.fix cls i = .ok g) : Step cls h g := by
  unfold OHeap.fix at hg
  obtain ⟨⟨y, p⟩, hy, hg⟩ := bind_ok hg
  simp only at hg
  split at hg
  · cases hg; exact step_down _ hy
  · exact (step_down _ hy).trans (step_up _ hg)

theorem step_evict {cls : K → Option C} : ∀ (fuel : Nat) {c d : OLRU K V}, c.evict cls fuel = .ok d → Step cls c.heap d.heap
  | 0, c, d, hd => by
    unfold OLRU.evict at hd
    split at hd
    · cases hd
    · cases hd; exact Step.refl _ _
  | fuel + 1, c, d, hd => by
    unfold OLRU.evict at hd
    split at hd
    · obtain ⟨⟨g, e⟩, hg, hd⟩ := bind_ok hd
      exact (step_pop hg).trans (step_evict fuel hd)
    · cases hd; exact Step.refl _ _

/-- Whether a call may store a value under an odd key: a lookup of one whose miss function returns a value with a size. -/
def stores (cls : K → Option C) : Op K V E → Bool
  | .get _ k (.ok _ size) => (cls k).isNone && decide (size ≠ 0)
  | _ => false

/-- The key of a call. -/
def keyOf : Op K V E → K
  | .get _ k _ => k
  | .inv k => k

/-- What a call does to the index. -/
structure Call (cls : K → Option C) (op : Op K V E) (h g : OHeap K V) : Prop where
  odds : (odds cls h.index).length + (if stores cls op then 1 else 0) ≤ (odds cls g.index).length
  nodup : (classes cls h.index).Nodup → (classes cls g.index).Nodup
  keys : ∀ Q : K → Prop, Q (keyOf op) → (∀ e ∈ h.list, Q e.key) ∧ (∀ p ∈ h.index, Q p.1) →
    (∀ e ∈ g.list, Q e.key) ∧ (∀ p ∈ g.index, Q p.1)

theorem Step.call {cls : K → Option C} {op : Op K V E} {h g : OHeap K V} (hs : Step cls h g) (hn : stores cls op = false) : Call cls op h g :=
  ⟨by rw [hn]; simpa using hs.odds, hs.nodup, fun Q _ => hs.keys Q⟩

theorem call_get {cls : K → Option C} {c d : OLRU K V} {now : Nat} {k : K} {o : Outcome V E} {r : Res V E} (hd : c.get cls now k o = .ok (d, r)) :
    Call cls (.get now k o) c.heap d.heap := by
  unfold OLRU.get at hd
  split at hd
  · next i hi =>
    obtain ⟨e, he, hd⟩ := bind_ok hd
    obtain ⟨g, hg, hd⟩ := bind_ok hd
    cases hd
    refine (step_fix hg).call ?_
    cases o with
    | fail v e => rfl
    | ok v size =>
      cases hk : cls k with
      | none => rw [look_odd hk] at hi; cases hi
      | some x => simp [stores, hk]
  · next hi =>
    cases o with
    | fail v e => cases hd; exact (Step.refl _ _).call rfl
    | ok v size =>
      simp only at hd
      split at hd
      · next hz => cases hd; exact (Step.refl _ _).call (by simp [stores, hz])
      · next hz =>
        obtain ⟨g, hg, hd⟩ := bind_ok hd
        obtain ⟨x, hx, hd⟩ := bind_ok hd
        cases hd
        unfold OHeap.push at hg
        have s := (step_up _ hg).trans (step_evict _ hx)
        refine ⟨Nat.le_trans ?_ s.odds, fun h => s.nodup (classes_put _ _ _ _ h), ?_⟩
        · simp only [OHeap.pushLast, odds_put]
          cases hk : cls k with
          | none => simp [stores, hk, hz]
          | some x => simp [stores, hk]
        · rintro Q hk ⟨h1, h2⟩
          refine s.keys Q ⟨?_, keys_put h2 hk⟩
          intro e he
          rcases List.mem_append.1 he with he | he
          · exact h1 e he
          · rw [List.mem_singleton] at he; subst he; exact hk

theorem call_inv {cls : K → Option C} {c d : OLRU K V} {k : K} (hd : c.invalidate cls k = .ok d) :
    Call cls (.inv k : Op K V E) c.heap d.heap := by
  unfold OLRU.invalidate at hd
  split at hd
  · cases hd; exact (Step.refl _ _).call rfl
  · obtain ⟨e, he, hd⟩ := bind_ok hd
    obtain ⟨l, hl, hd⟩ := bind_ok hd
    obtain ⟨g, hg, hd⟩ := bind_ok hd
    obtain ⟨⟨x, a⟩, hx, hd⟩ := bind_ok hd
    cases hd
    have s := (step_fix hg).trans (step_pop hx)
    refine Step.call ⟨?_, fun h => classes_del _ _ _ (s.nodup h), ?_⟩ rfl
    · simp only [odds_del]; exact s.odds
    · rintro Q ⟨h1, h2⟩
      have := s.keys Q ⟨fun y hy => by
        rcases gset_mem hl y hy with hy | rfl
        · exact h1 y hy
        · exact h1 e (idx_mem he), h2⟩
      exact ⟨this.1, fun p hp => this.2 p (List.mem_filter.1 hp).1⟩

theorem call_run {cls : K → Option C} : ∀ (ops : List (Op K V E)) {c d : OLRU K V} {rs : List (Option (Res V E))}, c.run cls ops = .ok (d, rs) →
    (odds cls c.heap.index).length + (ops.filter (stores cls)).length ≤ (odds cls d.heap.index).length ∧
    ((classes cls c.heap.index).Nodup → (classes cls d.heap.index).Nodup) ∧
    ∀ Q : K → Prop, (∀ op ∈ ops, Q (keyOf op)) → (∀ e ∈ c.heap.list, Q e.key) ∧ (∀ p ∈ c.heap.index, Q p.1) →
      (∀ e ∈ d.heap.list, Q e.key) ∧ (∀ p ∈ d.heap.index, Q p.1)
  | [], c, d, rs, h => by cases h; exact ⟨Nat.le_refl _, id, fun _ _ => id⟩
  | op :: ops, c, d, rs, h => by
    have : ∃ x rs', Call cls op c.heap x.heap ∧ OLRU.run cls x ops = .ok (d, rs') := by
      cases op with
      | get now k o =>
        unfold OLRU.run at h
        obtain ⟨⟨x, r⟩, hx, h⟩ := bind_ok h
        obtain ⟨⟨y, rs'⟩, hy, h⟩ := bind_ok h
        cases h
        exact ⟨x, rs', call_get hx, hy⟩
      | inv k =>
        unfold OLRU.run at h
        obtain ⟨x, hx, h⟩ := bind_ok h
        obtain ⟨⟨y, rs'⟩, hy, h⟩ := bind_ok h
        cases h
        exact ⟨x, rs', call_inv hx, hy⟩
    obtain ⟨x, rs', hc, hr⟩ := this
    obtain ⟨h1, h2, h3⟩ := call_run ops hr
    refine ⟨?_, fun hn => h2 (hc.nodup hn), fun Q hQ hh => h3 Q (fun op ho => hQ op (by simp [ho])) (hc.keys Q (hQ op (by simp)) hh)⟩
    have := hc.odds
    rw [List.filter_cons]
    split at this
    · next hs => rw [if_pos hs]; simp only [List.length_cons]; omega
    · next hs => rw [if_neg hs]; omega

/-- The entries of a map are those with a class and those without. -/
theorem length_split (cls : K → Option C) (m : GMap K A) : m.length = (classes cls m).length + (odds cls m).length := by
  unfold classes odds
  induction m with
  | nil => rfl
  | cons p m ih =>
    cases hp : cls p.1 with
    | none => simp [List.filterMap_cons, hp, ih]; omega
    | some c => simp [List.filterMap_cons, hp, ih]; omega

/-! ### Properties -/

/-- C156: in the LRU cache, with any keys, nothing panics and the answers are those of a first-in first-out cache to which each use
of an odd key is the use of a key never seen before. The held entries are those too, within the budget. -/
theorem C156_lru_answers (cls : K → Option C) (maxS : Int) (h0 : 0 ≤ maxS) (ops : List (Op K V E)) (hv : ∀ op ∈ ops, op.Valid)
    (hinc : Increasing 0 ops) :
    ∃ c, (OLRU.new maxS).run cls ops = .ok (c, (fifoRun maxS [] (fresh cls 0 ops)).2) ∧
      (c.heap.list.map fun e => (e.val, e.size)).Perm ((fifoRun maxS [] (fresh cls 0 ops)).1.map fun x => (x.val, x.size)) ∧
      c.curSize = (c.heap.list.map (·.size)).foldr (· + ·) 0 ∧ c.curSize ≤ maxS := by
  have hinc' : ∀ (ops : List (Op K V E)) (t n : Nat), Increasing t ops → Increasing t (fresh cls n ops) := by
    intro ops
    induction ops with
    | nil => intros; trivial
    | cons op ops ih =>
      intro t n h
      cases op with
      | get now k o => exact ⟨h.1, ih _ _ h.2⟩
      | inv k => exact ih _ _ h
  obtain ⟨c', hr, hp⟩ := C04_refines_fifo maxS h0 (fresh cls 0 ops) (fresh_valid cls ops 0 hv) (hinc' ops 0 0 hinc)
  obtain ⟨d, d', rs, h1, h2, hs, inv, hm, hle, _⟩ := sim_run ops 0 (sim_new cls maxS) (inv_new maxS) h0 h0 (by intro e he; cases he) hv
  rw [hr] at h2
  cases h2
  have hl : ∀ {l : List (Entry K V)} {l' : List (Entry (C ⊕ Nat) V)}, Labs cls l l' →
      (l.map fun e => (e.val, e.size)) = (l'.map fun e => (e.val, e.size)) ∧ tot l' = (l.map (·.size)).foldr (· + ·) 0 := by
    intro l
    induction l with
    | nil => intro l' h; cases l' with
      | nil => exact ⟨rfl, rfl⟩
      | cons _ _ => exact h.elim
    | cons e l ih => intro l' h; cases l' with
      | nil => exact h.elim
      | cons e' l' =>
        obtain ⟨i1, i2⟩ := ih h.2
        exact ⟨by simp [i1, h.1.2.1, h.1.2.2.2], by simp [tot, i2, h.1.2.2.2]⟩
  refine ⟨d, h1, ?_, ?_, ?_⟩
  · rw [(hl hs.1.1).1]
    have := hp.map (fun x => (x.val, x.size))
    rw [List.map_map] at this
    exact this
  · rw [hs.2.2, inv.cur, (hl hs.1.1).2]
  · rw [hs.2.2]
    have e : c'.maxSize = maxS := hm
    omega

/-- C156: a lookup of an odd key never hits, whatever was stored: the miss function is called every time. -/
theorem C156_lru_misses (cls : K → Option C) (maxS : Int) (h0 : 0 ≤ maxS) (ops : List (Op K V E)) (hv : ∀ op ∈ ops, op.Valid)
    (c : OLRU K V) (rs : List (Option (Res V E))) (hrun : (OLRU.new maxS).run cls ops = .ok (c, rs)) (k : K) (hk : cls k = none)
    (now : Nat) (o : Outcome V E) (hvo : (Op.get now k o).Valid) :
    ∃ d r, c.get cls now k o = .ok (d, r) ∧ r.called = true ∧ r.hm ≠ .hit := by
  obtain ⟨d, d', rs', h1, h2, hs, inv, hm, hle, hb⟩ := sim_run ops 0 (sim_new cls maxS) (inv_new maxS) h0 h0 (by intro e he; cases he) hv
  rw [hrun] at h1
  cases h1
  have hn := below_none inv hb
  have hnm : ∀ n, name cls n k = .inr n := by intro n; unfold name; rw [hk]
  obtain ⟨x', r, hg, _⟩ := get_inv d' inv (by rw [hm]; exact h0) hle now (name cls (0 + ops.length) k) o (by cases o <;> exact hvo)
  obtain ⟨x, hx, _⟩ := sim_get hs _ hn now k o hg
  refine ⟨x, r, hx, ?_⟩
  unfold OLRU.get at hx
  rw [look_odd hk] at hx
  cases o with
  | fail v e => cases hx; exact ⟨rfl, by simp⟩
  | ok v size =>
    simp only at hx
    split at hx
    · cases hx; exact ⟨rfl, by simp⟩
    · obtain ⟨_, _, hx⟩ := bind_ok hx
      obtain ⟨_, _, hx⟩ := bind_ok hx
      cases hx
      exact ⟨rfl, by simp⟩

/-- C156: invalidating an odd key does nothing, in any state. -/
theorem C156_lru_invalidate (cls : K → Option C) (c : OLRU K V) (k : K) (hk : cls k = none) : c.invalidate cls k = .ok c := by
  unfold OLRU.invalidate
  rw [look_odd hk]

/-- C156: the index holds each class once, exactly those of the keys in the list; without odd keys it has an entry for each cached
entry and no other.
What is missing: with odd keys it has more, see `C156_lru_index_violated`. -/
theorem C156_lru_index_partial (cls : K → Option C) (maxS : Int) (h0 : 0 ≤ maxS) (ops : List (Op K V E)) (hv : ∀ op ∈ ops, op.Valid) :
    ∃ c rs, (OLRU.new maxS).run cls ops = .ok (c, rs) ∧
      (c.heap.index.filterMap fun p => cls p.1).Perm (c.heap.list.filterMap fun e => cls e.key) ∧
      ((∀ op ∈ ops, (cls (keyOf op)).isSome) → c.heap.index.length = c.heap.list.length) := by
  obtain ⟨d, d', rs, h1, h2, hs, inv, hm, hle, hb⟩ := sim_run ops 0 (sim_new cls maxS) (inv_new maxS) h0 h0 (by intro e he; cases he) hv
  obtain ⟨_, hn, hq⟩ := call_run ops h1
  have hn := hn (by simp [OLRU.new, classes])
  have hll : ∀ {l : List (Entry K V)} {l' : List (Entry (C ⊕ Nat) V)}, Labs cls l l' → ∀ c, c ∈ (l.filterMap fun e => cls e.key) ↔ .inl c ∈ l'.map (·.key) := by
    intro l
    induction l with
    | nil => intro l' h; cases l' with
      | nil => simp
      | cons _ _ => exact h.elim
    | cons e l ih => intro l' h; cases l' with
      | nil => exact h.elim
      | cons e' l' =>
        intro c
        have hk := h.1.1
        unfold Named at hk
        cases he : cls e.key with
        | none =>
          rw [he] at hk
          obtain ⟨n, hk⟩ := hk
          simpa [List.filterMap_cons, he, hk] using ih h.2 c
        | some x =>
          rw [he] at hk
          simp only at hk
          have := ih h.2 c
          simp [List.filterMap_cons, he, hk] at this ⊢
          rw [this]
  have hnl : ∀ {l : List (Entry K V)} {l' : List (Entry (C ⊕ Nat) V)}, Labs cls l l' → (l'.map (·.key)).Nodup → (l.filterMap fun e => cls e.key).Nodup := by
    intro l
    induction l with
    | nil => intro l' _ _; simp
    | cons e l ih => intro l' h hn; cases l' with
      | nil => exact h.elim
      | cons e' l' =>
        simp only [List.map_cons, List.nodup_cons] at hn
        have hk := h.1.1
        unfold Named at hk
        cases he : cls e.key with
        | none => simpa [List.filterMap_cons, he] using ih h.2 hn.2
        | some x =>
          rw [he] at hk
          simp only at hk
          rw [List.filterMap_cons, he]
          simp only [List.nodup_cons]
          refine ⟨?_, ih h.2 hn.2⟩
          rw [hll h.2 x, ← hk]
          exact hn.1
  have hp : (d.heap.index.filterMap fun p => cls p.1).Perm (d.heap.list.filterMap fun e => cls e.key) := by
    refine (List.perm_ext_iff_of_nodup (show (d.heap.index.filterMap fun p => cls p.1).Nodup from hn) (hnl hs.1.1 (keys_nodup d'.heap inv.wf.index))).2 ?_
    intro c
    rw [show (c ∈ d.heap.index.filterMap fun p => cls p.1) ↔ ∃ v, lookC cls d.heap.index c = some v from mem_classes, hll hs.1.1 c]
    constructor
    · rintro ⟨i, hi⟩
      rw [hs.1.2 c] at hi
      obtain ⟨e, he, hek⟩ := (inv.wf.index _ i).1 hi
      exact List.mem_map.2 ⟨e, List.mem_iff_getElem?.2 ⟨i, he⟩, hek⟩
    · intro hc
      obtain ⟨e, he, hek⟩ := List.mem_map.1 hc
      obtain ⟨i, hi⟩ := List.mem_iff_getElem?.1 he
      exact ⟨i, by rw [hs.1.2 c]; exact (inv.wf.index _ i).2 ⟨e, hi, hek⟩⟩
  refine ⟨d, rs, h1, hp, ?_⟩
  intro hall
  obtain ⟨k1, k2⟩ := hq (fun k => (cls k).isSome) hall ⟨by simp [OLRU.new], by simp [OLRU.new]⟩
  have e1 : ∀ {α : Type} (f : α → K) (l : List α), (∀ x ∈ l, (cls (f x)).isSome) → (l.filterMap fun x => cls (f x)).length = l.length := by
    intro α f l
    induction l with
    | nil => intro _; rfl
    | cons a l ih =>
      intro h
      have := h a (by simp)
      cases ha : cls (f a) with
      | none => rw [ha] at this; cases this
      | some x => simp [List.filterMap_cons, ha, ih (fun y hy => h y (by simp [hy]))]
  have := hp.length_eq
  exact (e1 Prod.fst _ k2).symm.trans (this.trans (e1 Entry.key _ k1))

/-- C156: each value stored under an odd key leaves at least one entry in the index for ever. -/
theorem C156_lru_kept (cls : K → Option C) (maxS : Int) (ops : List (Op K V E)) (c : OLRU K V) (rs : List (Option (Res V E)))
    (hrun : (OLRU.new maxS).run cls ops = .ok (c, rs)) :
    (ops.filter (stores cls)).length ≤ c.heap.index.length := by
  have := (call_run ops hrun).1
  have e := length_split cls c.heap.index
  have e0 : (odds cls (OLRU.new maxS : OLRU K V).heap.index).length = 0 := rfl
  omega

/-- C156 (negation): with an odd key, a cache with room for one entry grows without bound: after `n` lookups of the key, each followed
by invalidating it, one entry at most is cached, and the index has at least `n`. -/
theorem C156_lru_index_violated (cls : K → Option C) (k : K) (hk : cls k = none) (v : V) (n : Nat) :
    ∃ (ops : List (Op K V E)) (c : OLRU K V) (rs : List (Option (Res V E))), (OLRU.new 1).run cls ops = .ok (c, rs) ∧
      c.heap.list.length ≤ 1 ∧ n ≤ c.heap.index.length := by
  have hv : ∀ op ∈ (List.replicate n [Op.get 1 k (.ok v 1), Op.inv k]).flatten, (op : Op K V E).Valid := by
    intro op hop
    obtain ⟨l, hl, hop⟩ := List.mem_flatten.1 hop
    obtain ⟨_, rfl⟩ := List.mem_replicate.1 hl
    simp only [List.mem_cons, List.not_mem_nil, or_false] at hop
    rcases hop with rfl | rfl
    · exact ⟨by decide, by decide⟩
    · trivial
  obtain ⟨d, d', rs, h1, h2, hs, inv, hm, hle, hb⟩ := sim_run (K := K) (V := V) (E := E) (List.replicate n [Op.get 1 k (.ok v 1), Op.inv k]).flatten 0
    (sim_new cls 1) (inv_new 1) (by simp [LRU.new]) (by simp [LRU.new]) (by intro e he; cases he) hv
  refine ⟨_, d, rs, h1, ?_, ?_⟩
  · have hlen : ∀ l : List (Entry (C ⊕ Nat) V), (∀ e ∈ l, 0 < e.size) → (l.length : Int) ≤ tot l := by
      intro l
      induction l with
      | nil => intro _; simp [tot]
      | cons e l ih =>
        intro h
        have h1 := h e (by simp)
        have h2 := ih (fun x hx => h x (by simp [hx]))
        simp only [tot, List.length_cons]
        omega
    have := hlen _ inv.size
    rw [hs.1.1.length]
    have e : d'.maxSize = 1 := hm
    have := inv.cur
    omega
  · have := C156_lru_kept cls 1 _ d rs h1
    have e : ∀ n, ((List.replicate n [Op.get 1 k (.ok v 1), Op.inv k]).flatten.filter (stores (E := E) cls)).length = n := by
      intro n
      induction n with
      | zero => rfl
      | succ n ih =>
        rw [List.replicate_succ, List.flatten_cons, List.filter_append, List.length_append, ih]
        simp [stores, hk]
        omega
    rw [e] at this
    exact this

/-- Numbers, and one that is not (none). -/
def num : Option Nat → Option Nat := id

/-- C156: with room for three: a number is found, the odd key is not, its entries push out the others. -/
example : ((OLRU.new 3).run (V := Nat) (E := Unit) num [.get 1 (some 1) (.ok 10 1), .get 2 none (.ok 20 1), .get 3 none (.ok 21 1), .get 4 (some 1) (.ok 11 1),
      .inv none, .get 5 none (.ok 22 1), .get 6 (some 1) (.ok 12 1)]).toOption.map
      (fun r => (r.2.map (·.map fun r => (r.val, r.called)), r.1.heap.list.map (·.val), r.1.heap.index.length)) =
    some ([some (10, true), some (20, true), some (21, true), some (10, false), none, some (22, true), some (12, true)], [21, 22, 12], 9) := by
  decide

/-! #### `Mem` -/

/-- The calls on `Mem`, each use of an odd key under a name of its own. -/
def freshM (cls : K → Option C) : Nat → List (MemOp K V E) → List (MemOp (C ⊕ Nat) V E)
  | _, [] => []
  | n, .get k o :: ops => .get (name cls n k) o :: freshM cls (n + 1) ops
  | n, .inv k :: ops => .inv (name cls n k) :: freshM cls (n + 1) ops

/-- C156: with any keys, `Mem` answers as a partial function to which each use of an odd key is the use of a key never seen
before. -/
theorem C156_mem_answers (cls : K → Option C) (ops : List (MemOp K V E)) :
    (memRun cls [] ops).2 = (memoRun (fun _ => none) (freshM cls 0 ops)).2 := by
  have gen : ∀ (ops : List (MemOp K V E)) (m : GMap K V) (f : C ⊕ Nat → Option V) (n : Nat), (∀ c, lookC cls m c = f (.inl c)) →
      (∀ j, n ≤ j → f (.inr j) = none) → (memRun cls m ops).2 = (memoRun f (freshM cls n ops)).2 := by
    intro ops
    induction ops with
    | nil => intros; rfl
    | cons op ops ih =>
      intro m f n hc hj
      have hf : ∀ k, look cls m k = f (name cls n k) := by
        intro k
        unfold name
        cases hk : cls k with
        | some c => rw [look_some hk]; exact hc c
        | none => rw [look_odd hk]; exact (hj n (Nat.le_refl _)).symm
      have hj' : ∀ j, n + 1 ≤ j → f (.inr j) = none := fun j h => hj j (by omega)
      cases op with
      | get k o =>
        obtain ⟨v, e⟩ := o
        simp only [memRun, freshM, memoRun, memGet]
        rw [hf k]
        cases hk : f (name cls n k) with
        | some w => simp only; rw [ih m f (n + 1) hc hj']
        | none =>
          cases e with
          | some e => simp only; rw [ih m f (n + 1) hc hj']
          | none =>
            simp only
            rw [ih (put cls m k v) (fun x => if x = name cls n k then some v else f x) (n + 1) ?_ ?_]
            · intro c
              rw [lookC_put, hc]
              unfold name
              cases hk : cls k with
              | some d => simp only [Option.some.injEq, Sum.inl.injEq, eq_comm]
              | none => simp
            · intro j hjn
              rw [if_neg, hj' j hjn]
              intro h
              have := name_below cls n k j h.symm
              omega
      | inv k =>
        simp only [memRun, freshM, memoRun, memInvalidate]
        rw [ih (del cls m k) (fun x => if x = name cls n k then none else f x) (n + 1) ?_ ?_]
        · intro c
          rw [lookC_del, hc]
          unfold name
          cases hk : cls k with
          | some d => simp only [Option.some.injEq, Sum.inl.injEq, eq_comm]
          | none => simp
        · intro j hjn
          split
          · rfl
          · exact hj' j hjn
  exact gen ops [] _ 0 (fun _ => rfl) (fun _ _ => rfl)

/-- A value stored under an odd key by a call. -/
def stored (cls : K → Option C) : MemOp K V E → Option (K × V)
  | .get k (v, none) => if cls k = none then some (k, v) else none
  | _ => none

/-- C156: `Mem` holds each class once, and keeps every value ever stored under an odd key. -/
theorem C156_mem_kept (cls : K → Option C) (ops : List (MemOp K V E)) :
    ((memRun cls [] ops).1.filterMap fun p => cls p.1).Nodup ∧
    ((memRun cls [] ops).1.filter fun p => (cls p.1).isNone) = ops.filterMap (stored cls) := by
  have gen : ∀ (ops : List (MemOp K V E)) (m : GMap K V), (classes cls m).Nodup → (classes cls (memRun cls m ops).1).Nodup ∧
      odds cls (memRun cls m ops).1 = odds cls m ++ ops.filterMap (stored cls) := by
    intro ops
    induction ops with
    | nil => intro m h; exact ⟨h, by simp [memRun]⟩
    | cons op ops ih =>
      intro m h
      cases op with
      | get k o =>
        obtain ⟨v, e⟩ := o
        simp only [memRun, memGet]
        cases hl : look cls m k with
        | some w =>
          simp only
          have hs : stored cls (.get k (v, e) : MemOp K V E) = none := by
            cases e with
            | some e => rfl
            | none =>
              unfold stored
              cases hk : cls k with
              | none => rw [look_odd hk] at hl; cases hl
              | some c => simp [hk]
          rw [List.filterMap_cons, hs]
          exact ih m h
        | none =>
          cases e with
          | some e =>
            simp only
            rw [List.filterMap_cons]
            exact ih m h
          | none =>
            simp only
            obtain ⟨i1, i2⟩ := ih (put cls m k v) (classes_put _ _ _ _ h)
            refine ⟨i1, ?_⟩
            rw [i2, odds_put, List.filterMap_cons]
            unfold stored
            split
            · next hk => simp [hk]
            · next hk => simp [hk]
      | inv k =>
        simp only [memRun, memInvalidate]
        obtain ⟨i1, i2⟩ := ih (del cls m k) (classes_del _ _ _ h)
        refine ⟨i1, ?_⟩
        rw [i2, odds_del, List.filterMap_cons]
        rfl
  have := gen ops [] (by simp [classes])
  exact ⟨this.1, by simpa [odds] using this.2⟩

/-- C156 (negation): `Mem` does not forget an odd key: after `n` lookups, each followed by invalidating the key, it has `n` entries
for it. -/
theorem C156_mem_violated (cls : K → Option C) (k : K) (hk : cls k = none) (v : V) (n : Nat) :
    (memRun cls [] (List.replicate n [(.get k (v, none) : MemOp K V E), .inv k]).flatten).1.length = n := by
  have h := C156_mem_kept cls (List.replicate n [(.get k (v, none) : MemOp K V E), .inv k]).flatten
  have e : ∀ n, ((List.replicate n [(.get k (v, none) : MemOp K V E), .inv k]).flatten.filterMap (stored cls)) = List.replicate n (k, v) := by
    intro n
    induction n with
    | zero => rfl
    | succ n ih =>
      rw [List.replicate_succ, List.flatten_cons, List.filterMap_append, ih, List.replicate_succ]
      simp [stored, hk]
  have hall : ∀ (ops : List (MemOp K V E)) (m : GMap K V), (∀ op ∈ ops, op = .get k (v, none) ∨ op = .inv k) → classes cls m = [] →
      classes cls (memRun cls m ops).1 = [] := by
    intro ops
    induction ops with
    | nil => intro m _ h; exact h
    | cons op ops ih =>
      intro m ho h
      rcases ho op (by simp) with rfl | rfl
      · simp only [memRun, memGet, look_odd hk]
        refine ih _ (fun op h => ho op (by simp [h])) ?_
        rw [put_odd hk]
        simpa [classes, hk] using h
      · simp only [memRun, memInvalidate, del_odd hk]
        exact ih _ (fun op h => ho op (by simp [h])) h
  rw [length_split cls, hall _ [] ?_ rfl]
  · have := congrArg List.length h.2
    rw [e] at this
    simpa [odds] using this
  · intro op hop
    obtain ⟨l, hl, hop⟩ := List.mem_flatten.1 hop
    obtain ⟨_, rfl⟩ := List.mem_replicate.1 hl
    simpa using hop

example : (fun r => (r.2.map (·.map fun r => (r.val, r.called)), r.1)) (memRun (E := Unit) num []
      [.get none (1, none), .get (some 5) (2, none), .get none (3, none), .inv none, .get (some 5) (4, none), .inv (some 5)]) =
    ([some (1, true), some (2, true), some (3, true), none, some (2, false), none], [(none, 1), (none, 3)]) := by decide

end Verif.Caches.Odd

import Verif.Caches.Props
import Verif.Sync.Locked
/-!
# Caches used by several goroutines (C164) (utils/caches/lru.go, mem.go)

`Caches.Model` takes each call for one step. Here `Get`, `Invalidate`, `Keys` and `String` are sequences of reads and writes of the fields,
as in Go, and goroutines are interleaved between any two of them. What the miss function returns, and what the clock says, are part of
the call, as there: they may be anything.
-/
set_option autoImplicit false
set_option linter.unusedSectionVars false
namespace Verif.Caches.Conc
open Verif.Sync.Locked

variable {σ : Type} {α β : Type}

/-- Code that accesses the shared memory, and may panic. -/
abbrev M (σ α : Type) := ExceptT Panic (Body σ) α

/-- It alone: the memory afterwards, and the result. -/
def exec (m : M σ α) (s : σ) : σ × Go α := Body.run (ExceptT.run m) s

/-- A read of the memory. lru.go L38, L49, L65. -/
def look (f : σ → Go α) : M σ α := ExceptT.mk (.step id fun s => .ret (f s))

/-- A write, nothing if it panics. lru.go L53, L57-58. -/
def poke (f : σ → Go σ) : M σ Unit :=
  ExceptT.mk (.step (fun s => match f s with | .ok s' => s' | .error _ => s) fun s => .ret (match f s with | .ok _ => .ok () | .error p => .error p))

/-- The code does what the function says: the memory and the result if it returns, the panic if it panics (the memory is anything then). -/
def Sim (m : M σ α) (f : σ → Go (σ × α)) : Prop :=
  ∀ s, (∀ s' a, f s = .ok (s', a) → exec m s = (s', .ok a)) ∧ (∀ p, f s = .error p → (exec m s).2 = .error p)

theorem sim_pure (a : α) : Sim (pure a : M σ α) fun s => .ok (s, a) := by
  intro s
  refine ⟨fun s' b h => ?_, fun p h => (nomatch h)⟩
  injection h with h; injection h with h1 h2; subst h1; subst h2; rfl

theorem exec_bind (m : M σ α) (k : α → M σ β) (s : σ) :
    exec (m >>= k) s = match exec m s with | (s', .ok a) => exec (k a) s' | (s', .error p) => (s', .error p) := by
  have h : exec (m >>= k) s = Body.run (Body.bind (ExceptT.run m) (ExceptT.bindCont k)) s := rfl
  rw [h, run_bind]
  show _ = match Body.run (ExceptT.run m) s with | (s', .ok a) => exec (k a) s' | (s', .error p) => (s', .error p)
  rcases Body.run (ExceptT.run m) s with ⟨s', a | a⟩
  · rfl
  · rfl

theorem sim_bind {m : M σ α} {f : σ → Go (σ × α)} {k : α → M σ β} {g : α → σ → Go (σ × β)} (hm : Sim m f) (hk : ∀ a, Sim (k a) (g a)) :
    Sim (m >>= k) fun s => f s >>= fun x => g x.2 x.1 := by
  intro s
  simp only [exec_bind]
  cases hf : f s with
  | error p =>
    refine ⟨fun s' a h => (nomatch h), fun q h => ?_⟩
    have h1 := (hm s).2 p hf
    rcases hx : exec m s with ⟨s1, r⟩
    rw [hx] at h1
    simp only at h1; subst h1
    simpa [bind, Except.bind] using h
  | ok x =>
    obtain ⟨s1, a⟩ := x
    rw [(hm s).1 s1 a hf]
    exact hk a s1

theorem sim_look (f : σ → Go α) : Sim (look f) fun s => f s >>= fun a => .ok (s, a) := by
  intro s
  have hx : exec (look f) s = (s, f s) := rfl
  rw [hx]
  cases hf : f s with
  | error p => exact ⟨fun s' a h => by simp [hf, bind, Except.bind] at h, fun q h => by simpa [hf, bind, Except.bind] using h⟩
  | ok b => exact ⟨fun s' a h => by simp [hf, bind, Except.bind] at h; simp [h], fun q h => by simp [hf, bind, Except.bind] at h⟩

theorem sim_poke (f : σ → Go σ) : Sim (poke f) fun s => f s >>= fun s' => .ok (s', ()) := by
  intro s
  have hx : exec (poke f) s = (match f s with | .ok s' => s' | .error _ => s, match f s with | .ok _ => .ok () | .error p => .error p) := rfl
  rw [hx]
  cases hf : f s with
  | error p => exact ⟨fun s' a h => by simp [hf, bind, Except.bind] at h, fun q h => by simpa [hf, bind, Except.bind] using h⟩
  | ok b => exact ⟨fun s' a h => by simp [hf, bind, Except.bind] at h; simp [h], fun q h => by simp [hf, bind, Except.bind] at h⟩

theorem sim_congr {m : M σ α} {f g : σ → Go (σ × α)} (h : Sim m f) (e : ∀ s, f s = g s) : Sim m g := by
  intro s; rw [← e s]; exact h s

variable {K V E : Type} [DecidableEq K]

/-! ### lru.go, access by access -/

/-- `this.heap.list[i]`. lru.go L66, L128. -/
def entry (i : Int) : M (LRU K V) (Entry K V) := look fun c => Go.idx c.heap.list i

/-- `len(this.heap.list)`. lru.go L124. -/
def len : M (LRU K V) Nat := look fun c => .ok c.heap.list.length

/-- `this.heap.list[i] = e`. lru.go L133. -/
def setEntry (i : Int) (e : Entry K V) : M (LRU K V) Unit := poke fun c => do
  let l ← Go.set c.heap.list i e
  pure { c with heap := { c.heap with list := l } }

/-- `this.heap.index[k] = i`, or `delete(this.heap.index, k)`. lru.go L57, L135-136, L142, L148. -/
def setIndex (k : K) (i : Option Nat) : M (LRU K V) Unit := poke fun c => .ok { c with heap := { c.heap with index := upd c.heap.index k i } }

/-- `this.curSize += d`. lru.go L58, L90, L94. -/
def addSize (d : Int) : M (LRU K V) Unit := poke fun c => .ok { c with curSize := c.curSize + d }

/-- lru.go L127-129 `Less`. -/
def less (i j : Nat) : M (LRU K V) Bool := do
  let a ← entry i
  let b ← entry j
  pure (decide (a.last < b.last))

/-- lru.go L131-137 `Swap`: both elements are read, then both written, then the index. -/
def swap (i j : Int) : M (LRU K V) Unit := do
  let x ← entry i
  let y ← entry j
  setEntry i y
  setEntry j x
  let a ← entry i
  setIndex a.key (some i.toNat)
  let b ← entry j
  setIndex b.key (some j.toNat)

/-- lru.go L139-144 `Pop`. -/
def popLast : M (LRU K V) (Entry K V) := do
  let n ← len
  let e ← entry ((n : Int) - 1)
  poke fun c => do
    let l ← Go.slice c.heap.list 0 ((c.heap.list.length : Int) - 1)
    pure { c with heap := { c.heap with list := l } }
  setIndex e.key none
  pure e

/-- lru.go L146-150 `Push`. -/
def pushLast (e : Entry K V) : M (LRU K V) Unit := do
  let n ← len
  setIndex e.key (some n)
  poke fun c => .ok { c with heap := { c.heap with list := c.heap.list ++ [e] } }

/-- Go `container/heap` `up`. Called through lru.go L61-98. -/
def up : Nat → Nat → M (LRU K V) Unit
  | 0, _ => throw .overflow
  | fuel + 1, j =>
    let i := (j - 1) / 2
    if i = j then pure ()
    else do
      let lt ← less j i
      if !lt then pure ()
      else do
        swap i j
        up fuel i

/-- Go `container/heap` `down`: the choice of the smaller child. Called through lru.go L45-98. -/
def smallerChild (i n : Nat) : M (LRU K V) Nat :=
  if 2 * i + 1 + 1 < n then do
    let right ← less (2 * i + 1 + 1) (2 * i + 1)
    pure (if right then 2 * i + 1 + 1 else 2 * i + 1)
  else pure (2 * i + 1)

/-- Go `container/heap` `down`. Called through lru.go L45-98. -/
def down : Nat → Nat → Nat → M (LRU K V) Nat
  | 0, _, _ => throw .overflow
  | fuel + 1, i, n =>
    if 2 * i + 1 ≥ n then pure i
    else do
      let j ← smallerChild i n
      let lt ← less j i
      if !lt then pure i
      else do
        swap i j
        down fuel j n

/-- Go `container/heap` `Push`. Called in lru.go L89. -/
def push (e : Entry K V) : M (LRU K V) Unit := do
  pushLast e
  let n ← len
  up n (n - 1)

/-- Go `container/heap` `Pop`. Called in lru.go L56 and L93. The second reading of the length only bounds the loop. -/
def pop : M (LRU K V) (Entry K V) := do
  let n ← len
  swap 0 ((n : Int) - 1)
  let m ← len
  let _ ← down m 0 ((n : Int) - 1).toNat
  popLast

/-- Go `container/heap` `Fix`. Called in lru.go L54 and L69. -/
def fix (i : Nat) : M (LRU K V) Unit := do
  let n ← len
  let j ← down n i n
  if j > i then pure () else up (i + 1) i

/-- lru.go L45-59 `Invalidate`, after `Lock`. -/
def invalidate (k : K) : M (LRU K V) Unit := do
  let at? ← look fun c => .ok (c.heap.index k)
  match at? with
  | none => pure ()
  | some i =>
    let e ← entry i
    setEntry i { e with last := 0 }
    fix i
    let e ← pop
    setIndex e.key none
    addSize (-e.size)

/-- lru.go L92-96. -/
def evict : Nat → M (LRU K V) Unit
  | 0 => do
    let cur ← look fun c => .ok c.curSize
    let max ← look fun c => .ok c.maxSize
    if cur > max then throw .overflow else pure ()
  | fuel + 1 => do
    let cur ← look fun c => .ok c.curSize
    let max ← look fun c => .ok c.maxSize
    if cur > max then
      let e ← pop
      addSize (-e.size)
      evict fuel
    else pure ()

/-- lru.go L61-98 `Get`, after `Lock`; the miss function is called between the look at the index and the rest. The reading of the length only
bounds the loop. -/
def get (now : Nat) (k : K) (o : Outcome V E) : M (LRU K V) (Res V E) := do
  let at? ← look fun c => .ok (c.heap.index k)
  match at? with
  | some i =>
    let e ← entry i
    fix i
    pure { val := e.val, hm := .hit, err := none, called := false }
  | none =>
    match o with
    | .fail v e => pure { val := v, hm := .err, err := some e, called := true }
    | .ok v size =>
      if size = 0 then pure { val := v, hm := .no, err := none, called := true }
      else do
        push { key := k, val := v, last := now, size }
        addSize size
        let n ← len
        evict (n + 1)
        pure { val := v, hm := .miss, err := none, called := true }

/-- lru.go L38-42: the loop of `Keys`, from element `i` on. -/
def keysFrom : Nat → Nat → M (LRU K V) (List K)
  | 0, _ => pure []
  | n + 1, i => do
    let e ← entry i
    let rest ← keysFrom n (i + 1)
    pure (e.key :: rest)

/-- lru.go L34-43 `Keys`, after `Lock`. -/
def keys : M (LRU K V) (List K) := do
  let n ← len
  keysFrom n 0

/-- What `String` shows: the sizes and, unless it found the cache empty, the number of entries and the oldest key. lru.go L100-107. -/
structure Shown (K : Type) where
  cur : Int
  max : Int
  rest : Option (Nat × K)
  deriving DecidableEq

/-- lru.go L100-107 `String`. -/
def string : M (LRU K V) (Shown K) := do
  let n ← len
  if n = 0 then do
    let cur ← look fun c => .ok c.curSize
    let max ← look fun c => .ok c.maxSize
    pure ⟨cur, max, none⟩
  else do
    let cur ← look fun c => .ok c.curSize
    let max ← look fun c => .ok c.maxSize
    let n ← len
    let e ← entry 0
    pure ⟨cur, max, some (n, e.key)⟩

/-! ### they do what the model says -/

theorem sim_entry (i : Int) : Sim (entry i : M (LRU K V) (Entry K V)) fun c => Go.idx c.heap.list i >>= fun e => .ok (c, e) := sim_look _
theorem sim_len : Sim (len : M (LRU K V) Nat) fun c => .ok (c, c.heap.list.length) := sim_look _
theorem sim_setIndex (k : K) (i : Option Nat) : Sim (setIndex k i : M (LRU K V) Unit) fun c =>
    .ok ({ c with heap := { c.heap with index := upd c.heap.index k i } }, ()) := sim_poke _
theorem sim_addSize (d : Int) : Sim (addSize d : M (LRU K V) Unit) fun c => .ok ({ c with curSize := c.curSize + d }, ()) := sim_poke _
theorem sim_setEntry (i : Int) (e : Entry K V) : Sim (setEntry i e : M (LRU K V) Unit) fun c =>
    Go.set c.heap.list i e >>= fun l => .ok ({ c with heap := { c.heap with list := l } }, ()) := by
  refine sim_congr (sim_poke _) fun c => ?_
  cases Go.set c.heap.list i e <;> rfl

theorem sim_throw (p : Panic) : Sim (throw p : M σ α) fun _ => .error p := fun _ => ⟨fun s' a h => (nomatch h), fun q h => by injection h with h; subst h; rfl⟩

/-- Panics of the heap functions of the model are panics of the code, on the same heap. -/
def onHeap (f : Heap K V → Go (Heap K V × α)) : LRU K V → Go (LRU K V × α) := fun c => f c.heap >>= fun x => .ok ({ c with heap := x.1 }, x.2)

theorem sim_less (i j : Nat) : Sim (less i j : M (LRU K V) Bool) (onHeap fun h => h.less i j >>= fun b => .ok (h, b)) := by
  refine sim_congr (sim_bind (sim_entry i) fun a => sim_bind (sim_entry j) fun b => sim_pure _) fun c => ?_
  simp only [onHeap, Heap.less]
  cases Go.idx c.heap.list i <;> simp only [bind, Except.bind, pure, Except.pure]
  cases Go.idx c.heap.list j <;> simp only

theorem sim_swap (i j : Int) : Sim (swap i j : M (LRU K V) Unit) (onHeap fun h => h.swap i j >>= fun h => .ok (h, ())) := by
  refine sim_congr (sim_bind (sim_entry i) fun x => sim_bind (sim_entry j) fun y => sim_bind (sim_setEntry i y) fun _ => sim_bind (sim_setEntry j x) fun _ =>
    sim_bind (sim_entry i) fun a => sim_bind (sim_setIndex a.key _) fun _ => sim_bind (sim_entry j) fun b => sim_setIndex b.key _) fun c => ?_
  simp only [onHeap, Heap.swap, Go.swap]
  cases Go.idx c.heap.list i <;> simp only [bind, Except.bind, pure, Except.pure]
  rename_i x
  cases Go.idx c.heap.list j <;> simp only
  rename_i y
  cases Go.set c.heap.list i y <;> simp only
  rename_i l
  cases Go.set l j x <;> simp only
  rename_i l'
  cases Go.idx l' i <;> simp only
  cases Go.idx l' j <;> simp only

theorem sim_popLast : Sim (popLast : M (LRU K V) (Entry K V)) (onHeap Heap.popLast) := by
  refine sim_congr (sim_bind sim_len fun n => sim_bind (sim_entry _) fun e => sim_bind (sim_poke _) fun _ => sim_bind (sim_setIndex e.key none) fun _ => sim_pure e) fun c => ?_
  simp only [onHeap, Heap.popLast]
  simp only [bind, Except.bind, pure, Except.pure]
  cases Go.idx c.heap.list ((c.heap.list.length : Int) - 1) <;> simp only
  cases Go.slice c.heap.list 0 ((c.heap.list.length : Int) - 1) <;> simp only

theorem sim_pushLast (e : Entry K V) : Sim (pushLast e : M (LRU K V) Unit) (onHeap fun h => .ok (h.pushLast e, ())) :=
  sim_congr (sim_bind sim_len fun n => sim_bind (sim_setIndex e.key _) fun _ => sim_poke _) fun _ => rfl

theorem onHeap_bind {α β : Type} (f : Heap K V → Go (Heap K V × α)) (g : α → Heap K V → Go (Heap K V × β)) (c : LRU K V) :
    (onHeap f c >>= fun x => onHeap (g x.2) x.1) = onHeap (fun h => f h >>= fun x => g x.2 x.1) c := by
  simp only [onHeap, bind, Except.bind]
  cases f c.heap with
  | error p => rfl
  | ok x => rfl

theorem sim_up (fuel : Nat) : ∀ j, Sim (up fuel j : M (LRU K V) Unit) (onHeap fun h => h.up fuel j >>= fun h => .ok (h, ())) := by
  induction fuel with
  | zero => intro j; exact sim_congr (sim_throw _) fun _ => rfl
  | succ fuel ih =>
    intro j
    unfold up
    simp only
    split
    · rename_i he
      exact sim_congr (sim_pure ()) fun c => by simp [onHeap, Heap.up, he, bind, Except.bind, pure, Except.pure]
    · rename_i he
      have hk : ∀ lt : Bool, Sim (if !lt then pure () else do swap (((j - 1) / 2 : Nat) : Int) j; up fuel ((j - 1) / 2) : M (LRU K V) Unit)
          (onHeap fun h => if !lt then .ok (h, ()) else h.swap (((j - 1) / 2 : Nat) : Int) j >>= fun h => h.up fuel ((j - 1) / 2) >>= fun h => .ok (h, ())) := by
        intro lt
        cases lt with
        | false => exact sim_congr (sim_pure ()) fun c => rfl
        | true =>
          refine sim_congr (sim_bind (sim_swap _ _) fun _ => ih _) fun c => ?_
          simp only [onHeap, Bool.not_true, Bool.false_eq_true, if_false]
          cases c.heap.swap (((j - 1) / 2 : Nat) : Int) j <;> simp only [bind, Except.bind]
      refine sim_congr (sim_bind (sim_less j _) hk) fun c => ?_
      simp only [onHeap, Heap.up, he, if_false]
      cases c.heap.less j ((j - 1) / 2) with
      | error p => rfl
      | ok lt =>
        cases lt with
        | false => rfl
        | true =>
          simp only [bind, Except.bind, Bool.not_true, Bool.false_eq_true, if_false]
          cases c.heap.swap (((j - 1) / 2 : Nat) : Int) j <;> rfl

theorem sim_smallerChild (i n : Nat) : Sim (smallerChild i n : M (LRU K V) Nat) (onHeap fun h => h.smallerChild i n >>= fun j => .ok (h, j)) := by
  unfold smallerChild
  split
  · rename_i hn
    refine sim_congr (sim_bind (sim_less _ _) fun b => sim_pure _) fun c => ?_
    simp only [onHeap, Heap.smallerChild, hn, if_true]
    cases c.heap.less (2 * i + 1 + 1) (2 * i + 1) <;> simp only [bind, Except.bind, pure, Except.pure]
  · rename_i hn
    exact sim_congr (sim_pure _) fun c => by simp [onHeap, Heap.smallerChild, hn, bind, Except.bind]

theorem sim_down (fuel : Nat) : ∀ i n, Sim (down fuel i n : M (LRU K V) Nat) (onHeap fun h => h.down fuel i n) := by
  induction fuel with
  | zero => intro i n; exact sim_congr (sim_throw _) fun _ => rfl
  | succ fuel ih =>
    intro i n
    unfold down
    split
    · rename_i he
      exact sim_congr (sim_pure _) fun c => by simp [onHeap, Heap.down, he, bind, Except.bind, pure, Except.pure]
    · rename_i he
      have hk : ∀ (j : Nat) (lt : Bool), Sim (if !lt then pure i else do swap (i : Int) j; down fuel j n : M (LRU K V) Nat)
          (onHeap fun h => if !lt then .ok (h, i) else h.swap (i : Int) j >>= fun h => h.down fuel j n) := by
        intro j lt
        cases lt with
        | false => exact sim_congr (sim_pure _) fun c => rfl
        | true =>
          refine sim_congr (sim_bind (sim_swap _ _) fun _ => ih _ _) fun c => ?_
          simp only [onHeap, Bool.not_true, Bool.false_eq_true, if_false]
          cases c.heap.swap (i : Int) j <;> simp only [bind, Except.bind]
      refine sim_congr (sim_bind (sim_smallerChild i n) fun j => sim_bind (sim_less j i) (hk j)) fun c => ?_
      simp only [onHeap, Heap.down, he, if_false]
      cases c.heap.smallerChild i n with
      | error p => rfl
      | ok j =>
        simp only [bind, Except.bind]
        cases c.heap.less j i with
        | error p => rfl
        | ok lt => cases lt <;> simp [pure, Except.pure]

theorem sim_push (e : Entry K V) : Sim (push e : M (LRU K V) Unit) (onHeap fun h => h.push e >>= fun h => .ok (h, ())) := by
  refine sim_congr (sim_bind (sim_pushLast e) fun _ => sim_bind sim_len fun n => sim_up n (n - 1)) fun c => ?_
  simp only [onHeap, Heap.push, bind, Except.bind]

theorem sim_pop : Sim (pop : M (LRU K V) (Entry K V)) (onHeap Heap.pop) := by
  refine sim_congr (sim_bind sim_len fun n => sim_bind (sim_swap 0 _) fun _ => sim_bind sim_len fun m => sim_bind (sim_down m 0 _) fun _ => sim_popLast) fun c => ?_
  simp only [onHeap, Heap.pop, bind, Except.bind]
  cases c.heap.swap 0 ((c.heap.list.length : Int) - 1) with
  | error p => rfl
  | ok h =>
    simp only
    cases h.down h.list.length 0 ((c.heap.list.length : Int) - 1).toNat <;> rfl

theorem sim_fix (i : Nat) : Sim (fix i : M (LRU K V) Unit) (onHeap fun h => h.fix i >>= fun h => .ok (h, ())) := by
  have hk : ∀ j : Nat, Sim (if j > i then pure () else up (i + 1) i : M (LRU K V) Unit)
      (onHeap fun h => if j > i then .ok (h, ()) else h.up (i + 1) i >>= fun h => .ok (h, ())) := by
    intro j
    split
    · rename_i hj; exact sim_congr (sim_pure _) fun c => rfl
    · rename_i hj; exact sim_up _ _
  refine sim_congr (sim_bind sim_len fun n => sim_bind (sim_down n i n) hk) fun c => ?_
  simp only [onHeap, Heap.fix, bind, Except.bind]
  cases c.heap.down c.heap.list.length i c.heap.list.length with
  | error p => rfl
  | ok x =>
    obtain ⟨h, j⟩ := x
    simp only
    by_cases hj : j > i
    · simp only [hj, if_true]; rfl
    · simp only [hj, if_false]

theorem sim_invalidate (k : K) : Sim (invalidate k : M (LRU K V) Unit) fun c => c.invalidate k >>= fun c => .ok (c, ()) := by
  have hk : ∀ at? : Option Nat, Sim (match at? with
      | none => pure ()
      | some i => do
        let e ← entry i
        setEntry i { e with last := 0 }
        fix i
        let e ← pop
        setIndex e.key none
        addSize (-e.size) : M (LRU K V) Unit) fun c => (match at? with
      | none => .ok (c, ())
      | some i => do
        let e ← Go.idx c.heap.list i
        let l ← Go.set c.heap.list i { e with last := 0 }
        let h ← Heap.fix { c.heap with list := l } i
        let (h, entry) ← h.pop
        pure ({ c with heap := { h with index := upd h.index entry.key none }, curSize := c.curSize - entry.size }, ())) := by
    intro at?
    cases at? with
    | none => exact sim_pure _
    | some i =>
      refine sim_congr (sim_bind (sim_entry _) fun e => sim_bind (sim_setEntry _ _) fun _ => sim_bind (sim_fix i) fun _ => sim_bind sim_pop fun e => sim_bind (sim_setIndex _ _) fun _ =>
        sim_addSize _) fun c => ?_
      simp only [onHeap, bind, Except.bind]
      cases Go.idx c.heap.list i with
      | error p => rfl
      | ok e =>
        simp only
        cases Go.set c.heap.list i { e with last := 0 } with
        | error p => rfl
        | ok l =>
          simp only
          cases Heap.fix { list := l, index := c.heap.index } i with
          | error p => rfl
          | ok h =>
            simp only
            cases h.pop with
            | error p => rfl
            | ok x => simp only [pure, Except.pure]; rw [show c.curSize - x.2.size = c.curSize + -x.2.size by omega]
  refine sim_congr (sim_bind (sim_look _) hk) fun c => ?_
  simp only [LRU.invalidate, bind, Except.bind]
  cases c.heap.index k with
  | none => rfl
  | some i =>
    simp only
    cases Go.idx c.heap.list i with
    | error p => rfl
    | ok e =>
      simp only
      cases Go.set c.heap.list i { e with last := 0 } with
      | error p => rfl
      | ok l =>
        simp only
        cases Heap.fix { list := l, index := c.heap.index } i with
        | error p => rfl
        | ok h =>
          simp only
          cases h.pop with
          | error p => rfl
          | ok x => rfl

theorem sim_evict (fuel : Nat) : Sim (evict fuel : M (LRU K V) Unit) fun c => LRU.evict fuel c >>= fun c => .ok (c, ()) := by
  induction fuel with
  | zero =>
    have hk : ∀ cur max : Int, Sim (if cur > max then throw .overflow else pure () : M (LRU K V) Unit) fun c => if cur > max then .error .overflow else .ok (c, ()) := by
      intro cur max
      split
      · exact sim_throw _
      · exact sim_pure _
    refine sim_congr (sim_bind (sim_look _) fun cur => sim_bind (sim_look _) fun max => hk cur max) fun c => ?_
    simp only [LRU.evict, bind, Except.bind]
    split <;> rfl
  | succ fuel ih =>
    have hk : ∀ cur max : Int, Sim (if cur > max then do let e ← pop; addSize (-e.size); evict fuel else pure () : M (LRU K V) Unit) fun c =>
        if cur > max then c.heap.pop >>= fun x => LRU.evict fuel { c with heap := x.1, curSize := c.curSize - x.2.size } >>= fun c => .ok (c, ()) else .ok (c, ()) := by
      intro cur max
      split
      · refine sim_congr (sim_bind sim_pop fun e => sim_bind (sim_addSize _) fun _ => ih) fun c => ?_
        simp only [onHeap, bind, Except.bind]
        cases c.heap.pop with
        | error p => rfl
        | ok x => simp only; rw [show c.curSize - x.2.size = c.curSize + -x.2.size by omega]
      · exact sim_pure _
    refine sim_congr (sim_bind (sim_look _) fun cur => sim_bind (sim_look _) fun max => hk cur max) fun c => ?_
    simp only [LRU.evict, bind, Except.bind]
    split
    · cases c.heap.pop <;> rfl
    · rfl

theorem sim_get (now : Nat) (k : K) (o : Outcome V E) : Sim (get now k o : M (LRU K V) (Res V E)) fun c => c.get now k o := by
  have hk : ∀ at? : Option Nat, Sim (match at? with
      | some i => do
        let e ← entry i
        fix i
        pure { val := e.val, hm := .hit, err := none, called := false }
      | none =>
        match o with
        | .fail v e => pure { val := v, hm := .err, err := some e, called := true }
        | .ok v size =>
          if size = 0 then pure { val := v, hm := .no, err := none, called := true }
          else do
            push { key := k, val := v, last := now, size }
            addSize size
            let n ← len
            evict (n + 1)
            pure { val := v, hm := .miss, err := none, called := true } : M (LRU K V) (Res V E)) fun c => (match at? with
      | some i => do
        let e ← Go.idx c.heap.list i
        let h ← c.heap.fix i
        pure ({ c with heap := h }, { val := e.val, hm := .hit, err := none, called := false })
      | none =>
        match o with
        | .fail v e => .ok (c, { val := v, hm := .err, err := some e, called := true })
        | .ok v size =>
          if size = 0 then .ok (c, { val := v, hm := .no, err := none, called := true })
          else do
            let h ← c.heap.push { key := k, val := v, last := now, size }
            let c'' ← LRU.evict (h.list.length + 1) { c with heap := h, curSize := c.curSize + size }
            pure (c'', { val := v, hm := .miss, err := none, called := true })) := by
    intro at?
    cases at? with
    | some i =>
      refine sim_congr (sim_bind (sim_entry _) fun e => sim_bind (sim_fix i) fun _ => sim_pure _) fun c => ?_
      simp only [onHeap, bind, Except.bind]
      cases Go.idx c.heap.list i with
      | error p => rfl
      | ok e => simp only; cases c.heap.fix i <;> rfl
    | none =>
      cases o with
      | fail v e => exact sim_pure _
      | ok v size =>
        simp only
        split
        · exact sim_pure _
        · refine sim_congr (sim_bind (sim_push _) fun _ => sim_bind (sim_addSize _) fun _ => sim_bind sim_len fun n => sim_bind (sim_evict _) fun _ => sim_pure _) fun c => ?_
          simp only [onHeap, bind, Except.bind]
          cases c.heap.push { key := k, val := v, last := now, size } with
          | error p => rfl
          | ok h => simp only; cases LRU.evict (h.list.length + 1) { c with heap := h, curSize := c.curSize + size } <;> rfl
  refine sim_congr (sim_bind (sim_look _) hk) fun c => ?_
  simp only [LRU.get, bind, Except.bind]
  cases c.heap.index k with
  | none => rfl
  | some i => rfl

theorem sim_keys : Sim (keys : M (LRU K V) (List K)) fun c => .ok (c, c.keys) := by
  have hk : ∀ n i (c : LRU K V), i + n = c.heap.list.length → exec (keysFrom n i) c = (c, .ok ((c.heap.list.drop i).map (·.key))) := by
    intro n
    induction n with
    | zero =>
      intro i c h
      have : c.heap.list.drop i = [] := List.drop_eq_nil_of_le (by omega)
      rw [this]; rfl
    | succ n ih =>
      intro i c h
      have hi : i < c.heap.list.length := by omega
      unfold keysFrom
      rw [exec_bind, (sim_entry i c).1 c c.heap.list[i] (by simp only [Go.idx_nat _ _ hi]; rfl)]
      simp only
      rw [exec_bind, ih (i + 1) c (by omega)]
      simp only
      rw [List.drop_eq_getElem_cons hi]
      rfl
  intro c
  refine ⟨fun s' a h => ?_, fun p h => (nomatch h)⟩
  injection h with h; injection h with h1 h2; subst h1; subst h2
  have := hk c.heap.list.length 0 c (by omega)
  unfold keys
  rw [exec_bind, (sim_len c).1 c _ rfl]
  simpa [LRU.keys] using this

/-! ### the shared cache -/

/-- The methods. lru.go L34-107. -/
inductive Call (K V E : Type) where
  | op (o : Op K V E)
  | keys
  | string

/-- What they return. -/
inductive Ans (K V E : Type) where
  | got (r : Res V E)
  | done
  | keys (l : List K)
  | text (t : Shown K)
  deriving DecidableEq

/-- The methods as sequences of accesses. lru.go L34-107. -/
def code : Call K V E → M (LRU K V) (Ans K V E)
  | .op (.get now k o) => do let r ← get now k o; pure (.got r)
  | .op (.inv k) => do invalidate k; pure .done
  | .keys => do let l ← keys; pure (.keys l)
  | .string => do let t ← string; pure (.text t)

/-- All but `String` begin with `Lock` and a deferred `Unlock`. lru.go L35-36, L46-47, L62-63, L100. -/
def takesLock : Call K V E → Bool
  | .string => false
  | _ => true

/-- An `LRU` as an object used by goroutines. lru.go L12-20. -/
def shared : Obj (LRU K V) (Call K V E) (Go (Ans K V E)) := ⟨fun c => ExceptT.run (code c), takesLock⟩

theorem readOnly_bind {m : Body σ α} {f : α → Body σ β} (hm : m.ReadOnly) (hf : ∀ a, (f a).ReadOnly) : (m.bind f).ReadOnly := by
  induction m with
  | ret a => exact hf a
  | step w k ih => exact ⟨hm.1, fun s => ih s (hm.2 s)⟩

theorem readOnly_seq {m : M σ α} {f : α → M σ β} (hm : (ExceptT.run m).ReadOnly) (hf : ∀ a, (ExceptT.run (f a)).ReadOnly) : (ExceptT.run (m >>= f)).ReadOnly := by
  refine readOnly_bind hm fun a => ?_
  cases a with
  | error p => trivial
  | ok a => exact hf a

theorem readOnly_look (f : σ → Go α) : (ExceptT.run (look f)).ReadOnly := ⟨fun _ => rfl, fun _ => trivial⟩

theorem readOnly_string : (ExceptT.run (string : M (LRU K V) (Shown K))).ReadOnly := by
  refine readOnly_seq (readOnly_look _) fun n => ?_
  split
  · exact readOnly_seq (readOnly_look _) fun _ => readOnly_seq (readOnly_look _) fun _ => trivial
  · exact readOnly_seq (readOnly_look _) fun _ => readOnly_seq (readOnly_look _) fun _ => readOnly_seq (readOnly_look _) fun _ => readOnly_seq (readOnly_look _) fun _ => trivial

theorem unlocked_reads (c : Call K V E) (h : (shared : Obj (LRU K V) (Call K V E) _).locks c = false) : ((shared : Obj (LRU K V) (Call K V E) _).body c).ReadOnly := by
  cases c with
  | op o => cases h
  | keys => cases h
  | string => exact readOnly_seq readOnly_string fun _ => trivial

/-- The calls of the model among the calls. -/
def Call.op? : Call K V E → Option (Op K V E)
  | .op o => some o
  | _ => none

/-- What a call answers if the cache is used by one goroutine only, after the calls `before`, in the model where each is one step. -/
def Answers (maxS : Int) (before : List (Op K V E)) (call : Call K V E) (a : Go (Ans K V E)) : Prop :=
  ∃ c rs, (LRU.new maxS).run before = .ok (c, rs) ∧ match call with
    | .op (.get now k o) => ∃ c' r, c.get now k o = .ok (c', r) ∧ a = .ok (.got r)
    | .op (.inv _) => a = .ok .done
    | .keys => a = .ok (.keys c.keys)
    | .string => False

theorem run_snoc (c : LRU K V) (ops : List (Op K V E)) (op : Op K V E) : c.run (ops ++ [op]) = (c.run ops >>= fun x => x.1.run [op] >>= fun y => .ok (y.1, x.2 ++ y.2)) := by
  induction ops generalizing c with
  | nil =>
    simp only [List.nil_append, LRU.run, bind, Except.bind]
    cases c.run [op] <;> rfl
  | cons o ops ih =>
    cases o with
    | get now k o =>
      simp only [List.cons_append, LRU.run, bind, Except.bind]
      cases c.get now k o with
      | error p => rfl
      | ok x =>
        simp only
        rw [ih]
        simp only [bind, Except.bind]
        cases x.1.run ops with
        | error p => rfl
        | ok y => simp only [pure, Except.pure]; cases y.1.run [op] <;> rfl
    | inv k =>
      simp only [List.cons_append, LRU.run, bind, Except.bind]
      cases c.invalidate k with
      | error p => rfl
      | ok x =>
        simp only
        rw [ih]
        simp only [bind, Except.bind]
        cases x.run ops with
        | error p => rfl
        | ok y => simp only [pure, Except.pure]; cases y.1.run [op] <;> rfl

/-- The code of one call, on the cache the model has after others. -/
theorem one_call (maxS : Int) (h0 : 0 ≤ maxS) (before : List (Op K V E)) (hv : ∀ op ∈ before, op.Valid) (c : LRU K V) (rs : List (Option (Res V E)))
    (hr : (LRU.new maxS).run before = .ok (c, rs)) (call : Call K V E) (hl : takesLock call = true) (hc : ∀ op, call = .op op → op.Valid) :
    ∃ c' rs', (LRU.new maxS).run (before ++ call.op?.toList) = .ok (c', rs') ∧ (exec (code call) c).1 = c' ∧ Answers maxS before call (exec (code call) c).2 := by
  cases call with
  | string => cases hl
  | keys =>
    have he : exec (code (E := E) (.keys : Call K V E)) c = (c, .ok (.keys c.keys)) := by
      simp only [code]
      rw [exec_bind, (sim_keys c).1 c _ rfl]; rfl
    exact ⟨c, rs, by simpa [Call.op?] using hr, by rw [he], c, rs, hr, by rw [he]⟩
  | op o =>
    have hall : ∀ op ∈ before ++ [o], op.Valid := by
      intro op hop
      rcases List.mem_append.1 hop with h | h
      · exact hv op h
      · rw [List.mem_singleton.1 h]; exact hc o rfl
    obtain ⟨c', rs', hr', -⟩ := C01_lru_sound maxS h0 (before ++ [o]) hall
    have hs := hr'
    rw [run_snoc, hr] at hs
    simp only [bind, Except.bind] at hs
    refine ⟨c', rs', by simpa [Call.op?] using hr', ?_⟩
    cases o with
    | get now k out =>
      simp only [LRU.run, bind, Except.bind] at hs
      cases hg : c.get now k out with
      | error p => rw [hg] at hs; cases hs
      | ok x =>
        obtain ⟨c1, r⟩ := x
        rw [hg] at hs
        simp only [pure, Except.pure, Except.ok.injEq, Prod.mk.injEq] at hs
        have he : exec (code (.op (.get now k out) : Call K V E)) c = (c1, .ok (.got r)) := by
          simp only [code]
          rw [exec_bind, (sim_get now k out c).1 c1 r hg]; rfl
        exact ⟨by rw [he]; exact hs.1, c, rs, hr, c1, r, hg, by rw [he]⟩
    | inv k =>
      simp only [LRU.run, bind, Except.bind] at hs
      cases hg : c.invalidate k with
      | error p => rw [hg] at hs; cases hs
      | ok c1 =>
        rw [hg] at hs
        simp only [pure, Except.pure, Except.ok.injEq, Prod.mk.injEq] at hs
        have he : exec (code (.op (.inv k) : Call K V E)) c = (c1, .ok .done) := by
          simp only [code]
          rw [exec_bind, (sim_invalidate k c).1 c1 () (by simp only [hg]; rfl)]; rfl
        exact ⟨by rw [he]; exact hs.1, c, rs, hr, by rw [he]⟩

/-- The calls of the model among the first ones. -/
def opsOf (l : List (Call K V E × Go (Ans K V E))) : List (Op K V E) := l.filterMap fun x => x.1.op?

theorem answers_seq (maxS : Int) (h0 : 0 ≤ maxS) (l : List (Call K V E × Go (Ans K V E))) (hl : ∀ x ∈ l, takesLock x.1 = true) (hv : ∀ x ∈ l, ∀ op, x.1 = .op op → op.Valid)
    (ha : (seq shared (LRU.new maxS) (l.map (·.1))).2 = l.map (·.2)) :
    (∃ rs, (LRU.new maxS).run (opsOf l) = .ok ((seq shared (LRU.new maxS) (l.map (·.1))).1, rs)) ∧
      ∀ a call r b, l = a ++ (call, r) :: b → Answers maxS (opsOf a) call r := by
  have gen : ∀ n, ∀ l : List (Call K V E × Go (Ans K V E)), l.length = n → (∀ x ∈ l, takesLock x.1 = true) → (∀ x ∈ l, ∀ op, x.1 = .op op → op.Valid) →
      (seq shared (LRU.new maxS) (l.map (·.1))).2 = l.map (·.2) →
      (∃ rs, (LRU.new maxS).run (opsOf l) = .ok ((seq shared (LRU.new maxS) (l.map (·.1))).1, rs)) ∧
      ∀ a call r b, l = a ++ (call, r) :: b → Answers maxS (opsOf a) call r := by
    intro n
    induction n with
    | zero =>
      intro l hn _ _ _
      have : l = [] := List.eq_nil_of_length_eq_zero hn
      subst this
      exact ⟨⟨[], rfl⟩, fun a call r b h => by simp at h⟩
    | succ n ih =>
      intro l hn hl hv ha
      rcases List.eq_nil_or_concat l with rfl | ⟨l0, x, rfl⟩
      · cases hn
      · obtain ⟨call, r⟩ := x
        have hn0 : l0.length = n := by simpa using hn
        rw [List.concat_eq_append] at *
        rw [List.map_append, List.map_append, List.map_singleton, List.map_singleton, seq_snoc] at ha
        have ha1 := List.append_inj' ha (by simp)
        obtain ⟨⟨rs, hr⟩, hans⟩ := ih l0 hn0 (fun x hx => hl x (by simp [hx])) (fun x hx => hv x (by simp [hx])) ha1.1
        have hops : ∀ op ∈ opsOf l0, op.Valid := by
          intro op hop
          obtain ⟨x, hx, he⟩ := List.mem_filterMap.1 hop
          refine hv x (by simp [hx]) op ?_
          cases hc : x.1 with
          | op o => rw [hc] at he; simp only [Call.op?, Option.some.injEq] at he; rw [he]
          | keys => rw [hc] at he; cases he
          | string => rw [hc] at he; cases he
        obtain ⟨c', rs', h1, h2, h3⟩ := one_call maxS h0 (opsOf l0) hops _ rs hr call (hl (call, r) (by simp)) (hv (call, r) (by simp))
        have hrun : ∀ s : LRU K V, Body.run ((shared : Obj (LRU K V) (Call K V E) _).body call) s = exec (code call) s := fun _ => rfl
        have hr2 : r = (exec (code call) (seq shared (LRU.new maxS) (l0.map (·.1))).1).2 := by
          have := ha1.2
          simp only [List.cons.injEq, and_true] at this
          rw [hrun] at this
          exact this.symm
        refine ⟨⟨rs', ?_⟩, ?_⟩
        · have : opsOf (l0 ++ [(call, r)]) = opsOf l0 ++ call.op?.toList := by
            simp only [opsOf, List.filterMap_append]
            cases call <;> simp [Call.op?]
          rw [this, List.map_append, List.map_singleton, seq_snoc, hrun, h2]
          exact h1
        · intro a call' r' b hx
          rcases List.eq_nil_or_concat b with rfl | ⟨b', y, rfl⟩
          · have := List.append_inj' hx (by simp)
            obtain ⟨e1, e2⟩ := this
            simp only [List.cons.injEq, Prod.mk.injEq, and_true] at e2
            obtain ⟨e2, e3⟩ := e2
            subst e1; subst e2; subst e3
            rw [hr2]; exact h3
          · have : l0 ++ [(call, r)] = (a ++ (call', r') :: b') ++ [y] := by simpa using hx
            exact hans a call' r' b' (List.append_inj' this (by simp)).1
  exact gen l.length l rfl hl hv ha

/-- The calls that were made are valid: sizes are not negative and clock readings are after the zero time. -/
def ValidCalls (tr : List (Ev (Call K V E) (Go (Ans K V E)))) : Prop := ∀ t op, .call t (.op op) ∈ tr → op.Valid

theorem finished_called (s0 : LRU K V) (tr : List (Ev (Call K V E) (Go (Ans K V E)))) (s : St (LRU K V) (Call K V E) (Go (Ans K V E))) (h : Exec shared s0 tr s)
    (x : Call K V E × Go (Ans K V E)) (hx : x ∈ finished shared tr) : takesLock x.1 = true ∧ ∃ t, .call t x.1 ∈ tr := by
  obtain ⟨e, he, hf⟩ := List.mem_filterMap.1 hx
  cases e with
  | call t op => cases hf
  | enter t op => cases hf
  | act t => cases hf
  | exit t op r =>
    simp only at hf
    split at hf
    · rename_i hl
      injection hf with hf; subst hf
      refine ⟨hl, t, ?_⟩
      obtain ⟨a, b, hab⟩ := List.append_of_mem he
      have hp := (returns shared s0 tr s h).1 a b t op r hab
      have : ∀ l : List (Ev (Call K V E) (Go (Ans K V E))), pending t l = some op → .call t op ∈ l := by
        intro l
        rw [← List.reverse_reverse l]
        generalize l.reverse = l
        induction l with
        | nil => intro h; cases h
        | cons e l ih =>
          intro h
          simp only [List.reverse_cons, pending, List.foldl_append, List.foldl_cons, List.foldl_nil] at h
          simp only [List.reverse_cons, List.mem_append, List.mem_singleton]
          cases e with
          | call u o =>
            simp only at h
            split at h
            · rename_i hu
              injection h with h; subst h; subst hu
              exact .inr rfl
            · exact .inl (ih h)
          | enter u o => exact .inl (ih h)
          | act u => exact .inl (ih h)
          | exit u o r =>
            simp only at h
            split at h
            · cases h
            · exact .inl (ih h)
      rw [hab]
      exact List.mem_append_left _ (this a hp)
    · cases hf

/-- C164: however goroutines are interleaved, every call of `Get`, `Invalidate` and `Keys` answers what the model answers after the calls
that released the mutex before it. None panics. -/
theorem C164_answers (maxS : Int) (h0 : 0 ≤ maxS) (tr : List (Ev (Call K V E) (Go (Ans K V E)))) (s : St (LRU K V) (Call K V E) (Go (Ans K V E)))
    (h : Exec shared (LRU.new maxS) tr s) (hv : ValidCalls tr) (a b : List (Call K V E × Go (Ans K V E))) (call : Call K V E) (r : Go (Ans K V E))
    (hf : finished shared tr = a ++ (call, r) :: b) : Answers maxS (opsOf a) call r :=
  (answers_seq maxS h0 (finished shared tr) (fun x hx => (finished_called _ tr s h x hx).1)
    (fun x hx op ho => by obtain ⟨t, ht⟩ := (finished_called _ tr s h x hx).2; exact hv t op (by rw [← ho]; exact ht))
    (one_by_one shared unlocked_reads _ tr s h).1).2 a call r b hf

/-- C164: and while nobody holds the mutex the cache is the one the model has after all calls that returned: no key is there twice, and
the entries are within the budget. -/
theorem C164_state (maxS : Int) (h0 : 0 ≤ maxS) (tr : List (Ev (Call K V E) (Go (Ans K V E)))) (s : St (LRU K V) (Call K V E) (Go (Ans K V E)))
    (h : Exec shared (LRU.new maxS) tr s) (hv : ValidCalls tr) (hfree : s.lock = none) :
    (∃ rs, (LRU.new maxS).run (opsOf (finished shared tr)) = .ok (s.sh, rs)) ∧ s.sh.keys.Nodup ∧ s.sh.curSize ≤ maxS := by
  have hval : ∀ x ∈ finished shared tr, ∀ op, x.1 = .op op → op.Valid := fun x hx op ho => by
    obtain ⟨t, ht⟩ := (finished_called _ tr s h x hx).2; exact hv t op (by rw [← ho]; exact ht)
  have hone := one_by_one shared unlocked_reads _ tr s h
  have hseq := (answers_seq maxS h0 (finished shared tr) (fun x hx => (finished_called _ tr s h x hx).1) hval hone.1).1
  rw [← hone.2 hfree] at hseq
  obtain ⟨rs, hrs⟩ := hseq
  refine ⟨⟨rs, hrs⟩, ?_⟩
  obtain ⟨c, rs', hc, h1, -, h3⟩ := C01_lru_sound maxS h0 (opsOf (finished shared tr)) (by
    intro op hop
    obtain ⟨x, hx, he⟩ := List.mem_filterMap.1 hop
    refine hval x hx op ?_
    cases hc : x.1 with
    | op o => rw [hc] at he; simp only [Call.op?, Option.some.injEq] at he; rw [he]
    | keys => rw [hc] at he; cases he
    | string => rw [hc] at he; cases he)
  rw [hrs] at hc
  injection hc with hc
  injection hc with hc1 hc2
  rw [hc1]
  exact ⟨h1, h3⟩

/-- C164: the calls return: as long as one has not, there is something that can be done. -/
theorem C164_goes_on (maxS : Int) (tr : List (Ev (Call K V E) (Go (Ans K V E)))) (s : St (LRU K V) (Call K V E) (Go (Ans K V E)))
    (h : Exec shared (LRU.new maxS) tr s) (t : Nat) (ht : s.th t ≠ .idle) : ∃ e s', Step shared s e s' ∧ ∀ u op, e ≠ .call u op :=
  goes_on shared unlocked_reads _ tr s h t ht

/-- C164: a call returns once, to the goroutine that made it, and after it was made. -/
theorem C164_once (maxS : Int) (tr : List (Ev (Call K V E) (Go (Ans K V E)))) (s : St (LRU K V) (Call K V E) (Go (Ans K V E))) (h : Exec shared (LRU.new maxS) tr s) :
    (∀ a b t op r, tr = a ++ .exit t op r :: b → pending t a = some op) ∧ (∀ a b t op, tr = a ++ .call t op :: b → pending t a = none) :=
  returns shared _ tr s h

/-- C164: if the clock readings are in the order in which the calls got the mutex, every `Get` answers as the queue of the sequential
specification does after the calls that released the mutex before it. -/
theorem C164_fifo (maxS : Int) (h0 : 0 ≤ maxS) (tr : List (Ev (Call K V E) (Go (Ans K V E)))) (s : St (LRU K V) (Call K V E) (Go (Ans K V E)))
    (h : Exec shared (LRU.new maxS) tr s) (hv : ValidCalls tr) (hinc : Increasing 0 (opsOf (finished shared tr)))
    (a b : List (Call K V E × Go (Ans K V E))) (now : Nat) (k : K) (o : Outcome V E) (r : Go (Ans K V E))
    (hf : finished shared tr = a ++ (.op (.get now k o), r) :: b) :
    ∃ x, r = .ok (.got x) ∧ (fifoRun maxS [] (opsOf a ++ [.get now k o])).2 = (fifoRun maxS [] (opsOf a)).2 ++ [some x] := by
  have hval : ∀ x ∈ finished shared tr, ∀ op, x.1 = .op op → op.Valid := fun x hx op ho => by
    obtain ⟨t, ht⟩ := (finished_called _ tr s h x hx).2; exact hv t op (by rw [← ho]; exact ht)
  have hops : ∀ l : List (Call K V E × Go (Ans K V E)), (∀ x ∈ l, x ∈ finished shared tr) → ∀ op ∈ opsOf l, op.Valid := by
    intro l hl op hop
    obtain ⟨x, hx, he⟩ := List.mem_filterMap.1 hop
    refine hval x (hl x hx) op ?_
    cases hc : x.1 with
    | op o => rw [hc] at he; simp only [Call.op?, Option.some.injEq] at he; rw [he]
    | keys => rw [hc] at he; cases he
    | string => rw [hc] at he; cases he
  have hpre : ∀ (x y : List (Op K V E)) (t : Nat), Increasing t (x ++ y) → Increasing t x := by
    intro x
    induction x with
    | nil => intros; trivial
    | cons op x ih =>
      intro y t hi
      cases op with
      | get n k o => exact ⟨hi.1, ih y _ hi.2⟩
      | inv k => exact ih y _ hi
  have hall : opsOf (finished shared tr) = (opsOf a ++ [.get now k o]) ++ opsOf b := by
    rw [hf]; simp [opsOf, Call.op?]
  rw [hall] at hinc
  have hi1 := hpre _ _ _ hinc
  obtain ⟨c1, hr1, -⟩ := C04_refines_fifo maxS h0 (opsOf a) (hops a (fun x hx => by rw [hf]; simp [hx])) (hpre _ _ _ hi1)
  obtain ⟨c2, hr2, -⟩ := C04_refines_fifo maxS h0 (opsOf a ++ [.get now k o]) (by
    have := hops (a ++ [(.op (.get now k o), r)]) (fun x hx => by
      rw [hf]
      rcases List.mem_append.1 hx with hx | hx
      · exact List.mem_append_left _ hx
      · exact List.mem_append_right _ (by rw [List.mem_singleton.1 hx]; exact List.mem_cons_self))
    simpa [opsOf, Call.op?] using this) hi1
  obtain ⟨c, rs, hr, c', x, hg, rfl⟩ := C164_answers maxS h0 tr s h hv a b _ r hf
  refine ⟨x, rfl, ?_⟩
  rw [hr] at hr1
  injection hr1 with hr1; injection hr1 with e1 e2
  rw [run_snoc, hr] at hr2
  simp only [bind, Except.bind, LRU.run, hg, pure, Except.pure] at hr2
  injection hr2 with hr2; injection hr2 with e3 e4
  rw [← e4, e2]

/-- Two goroutines: the first gets key 1 and invalidates it, the second gets it meanwhile. -/
def twoGets : List (Sched (Call Nat Nat Unit)) :=
  [.call 0 (.op (.get 5 1 (.ok 10 2))), .call 1 (.op (.get 7 1 (.ok 11 2))), .go 0, .go 1, .go 0, .go 1] ++
    List.replicate 40 (.go 0) ++ [.call 0 (.op (.inv 1)), .go 1, .go 0] ++ List.replicate 40 (.go 1) ++ List.replicate 40 (.go 0) ++ [.call 1 .keys] ++ List.replicate 6 (.go 1)

/-- The second waits for the first, and finds what it stored. -/
example : finished shared (play shared ⟨(LRU.new 6 : LRU Nat Nat), none, fun _ => .idle⟩ twoGets).1 =
    [(.op (.get 5 1 (.ok 10 2)), .ok (.got ⟨10, .miss, none, true⟩)), (.op (.get 7 1 (.ok 11 2)), .ok (.got ⟨10, .hit, none, false⟩)),
      (.op (.inv 1), .ok .done), (.keys, .ok (.keys []))] := by rfl

/-! ### String -/

/-- C164: while no other call is running, `String` does not panic, and shows the sizes, the number of entries and a key that is there. -/
theorem C164_string_partial (maxS : Int) (h0 : 0 ≤ maxS) (ops : List (Op K V E)) (hv : ∀ op ∈ ops, op.Valid) (c : LRU K V) (rs : List (Option (Res V E)))
    (hr : (LRU.new maxS).run ops = .ok (c, rs)) :
    ∃ t : Shown K, exec (code (.string : Call K V E)) c = (c, .ok (.text t)) ∧ t.cur = c.curSize ∧ t.cur ≤ t.max ∧ t.max = maxS ∧
      t.rest = c.keys.head?.map fun k => (c.keys.length, k) := by
  obtain ⟨c1, rs1, hr1, inv, hm, hb⟩ := run_inv ops (LRU.new maxS) (inv_new maxS) h0 h0 hv
  rw [hr] at hr1
  injection hr1 with hr1; injection hr1 with e1 e2
  subst e1
  have hmax : c.maxSize = maxS := hm
  obtain ⟨hp, mx, cur⟩ := c
  obtain ⟨l, ix⟩ := hp
  cases l with
  | nil => exact ⟨⟨cur, mx, none⟩, rfl, rfl, hb, hmax, rfl⟩
  | cons e l => exact ⟨⟨cur, mx, some (l.length + 1, e.key)⟩, rfl, rfl, hb, hmax, by simp [LRU.keys]⟩

/-- One goroutine stores an entry and invalidates it; the other asks for the text in between, and has read the length when the entry goes. -/
def stringRace : List (Sched (Call Nat Nat Unit)) :=
  .call 0 (.op (.get 5 1 (.ok 10 2))) :: List.replicate 40 (.go 0) ++ [.call 1 .string, .go 1, .go 1, .call 0 (.op (.inv 1))] ++ List.replicate 40 (.go 0) ++ List.replicate 10 (.go 1)

/-- One goroutine stores an entry in a full cache, and has not evicted the others when the text is asked for. -/
def stringTorn : List (Sched (Call Nat Nat Unit)) :=
  .call 0 (.op (.get 5 1 (.ok 10 2))) :: List.replicate 40 (.go 0) ++ [.call 0 (.op (.get 6 2 (.ok 20 2)))] ++ List.replicate 16 (.go 0) ++ .call 1 .string :: List.replicate 10 (.go 1)

/-- C164 (negation): `String` takes no lock. Called while another goroutine invalidates the only entry it panics, though no call that
takes the lock ever does. -/
theorem C164_string_violated : ∃ tr s, Exec (shared : Obj (LRU Nat Nat) (Call Nat Nat Unit) _) (LRU.new 6) tr s ∧ ValidCalls tr ∧ .exit 1 .string (.error .index) ∈ tr := by
  refine ⟨_, _, play_exec shared (LRU.new 6) stringRace, ?_, List.mem_of_getLast? (by rfl)⟩
  intro t op h
  have := play_calls shared _ _ _ _ h
  simp [stringRace, List.mem_replicate] at this
  rcases this with ⟨_, rfl⟩ | ⟨_, rfl⟩ <;> simp [Op.Valid]

/-- C164 (negation): and it may show more cached than the budget allows. -/
theorem C164_torn_violated : ∃ tr s, Exec (shared : Obj (LRU Nat Nat) (Call Nat Nat Unit) _) (LRU.new 3) tr s ∧ ValidCalls tr ∧
    .exit 1 .string (.ok (.text ⟨4, 3, some (2, 2)⟩)) ∈ tr := by
  refine ⟨_, _, play_exec shared (LRU.new 3) stringTorn, ?_, List.mem_of_getLast? (by rfl)⟩
  intro t op h
  have := play_calls shared _ _ _ _ h
  simp [stringTorn, List.mem_replicate] at this
  rcases this with ⟨_, rfl⟩ | ⟨_, rfl⟩ <;> simp [Op.Valid]

/-! ### Mem -/

/-- mem.go L22-41: the methods. -/
def memCode : MemOp K V E → Body (Mem K V) (Option (Res V E))
  | .inv k => .step (fun c => ⟨c.m.filter fun p => decide (p.1 ≠ k)⟩) fun _ => .ret none
  | .get k o => .step id fun c => match (c.m.find? fun p => decide (p.1 = k)).map (·.2) with
    | some v => .ret (some ⟨v, .hit, none, false⟩)
    | none => match o with
      | (v, some e) => .ret (some ⟨v, .err, some e, true⟩)
      | (v, none) => .step (fun c => ⟨(k, v) :: c.m⟩) fun _ => .ret (some ⟨v, .miss, none, true⟩)

/-- A `Mem` as an object used by goroutines: both methods lock. mem.go L9-13, L23-24, L29-30. -/
def memShared : Obj (Mem K V) (MemOp K V E) (Option (Res V E)) := ⟨memCode, fun _ => true⟩

theorem mem_seq (ops : List (MemOp K V E)) (c : Mem K V) : seq memShared c ops = c.run ops := by
  induction ops generalizing c with
  | nil => rfl
  | cons op ops ih =>
    simp only [seq, ih]
    cases op with
    | inv k => rfl
    | get k o =>
      have hr : Body.run (memShared.body (.get k o : MemOp K V E)) c = ((c.get k o).1, some (c.get k o).2) := by
        simp only [memShared, memCode, Body.run, Mem.get, id]
        cases c.m.find? (fun p => decide (p.1 = k)) with
        | some x => rfl
        | none =>
          obtain ⟨v, e⟩ := o
          cases e <;> rfl
      rw [hr]; rfl

/-- C164: however goroutines are interleaved, the calls of `Mem` answer as the partial function of the sequential specification does, in
the order in which they release the mutex. -/
theorem C164_mem (tr : List (Ev (MemOp K V E) (Option (Res V E)))) (s : St (Mem K V) (MemOp K V E) (Option (Res V E))) (h : Exec memShared Mem.new tr s) :
    (finished memShared tr).map (·.2) = (memoRun (fun _ => none) ((finished memShared tr).map (·.1))).2 := by
  rw [← C06_mem_refines, ← mem_seq, (one_by_one memShared (fun _ h => (nomatch h)) _ tr s h).1]

/-- Two goroutines ask for the same key at the same time: one of the miss functions is called. -/
example : finished memShared (play memShared ⟨(Mem.new : Mem Nat Nat), none, fun _ => .idle⟩
      [.call 0 (.get 1 (10, none)), .call 1 (.get 1 (11, (none : Option Unit))), .go 1, .go 0, .go 1, .go 0, .go 1, .go 0, .go 1, .go 0, .go 0, .go 0]).1 =
    [(.get 1 (11, none), some ⟨11, .miss, none, true⟩), (.get 1 (10, none), some ⟨11, .hit, none, false⟩)] := by rfl

end Verif.Caches.Conc

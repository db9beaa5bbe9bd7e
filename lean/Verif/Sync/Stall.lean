import Verif.Base
/-!
# Who waits for whom (C188): utils/prom, utils/caches, storage, http/ws

The methods that lock mutexes also call out while they do: they write to a connection, fetch what is missing from a cache, or log. Such a call may take as
long as it likes. Here goroutines are lists of calls, calls are lists of blocks, and a block is what is done with at most one mutex held (that there are no others
is `solo` of Sync/Deadlock.lean, for the same methods). The question is which goroutines can be finished while others have stopped inside of such a call.
-/
set_option autoImplicit false
namespace Verif.Sync.Stall

/-- What a goroutine does: lock or unlock a mutex, something of its own, or a call out, which may take for ever. utils/prom/histogram.go L74-126, utils/caches/lru.go L61-97. -/
inductive Instr (K : Type) where
  | lock (k : K)
  | unlock (k : K)
  | act
  | out
deriving DecidableEq

variable {K : Type} [DecidableEq K]

/-- What the goroutines still have to do, and who holds which mutex. -/
structure St (K : Type) where
  rest : Nat → List (Instr K)
  own : K → Option Nat

/-- Goroutine `g` goes on, if it can. -/
def step (s : St K) (g : Nat) : Option (St K) :=
  match s.rest g with
  | [] => none
  | .lock k :: r => if s.own k = none then some ⟨fun i => if i = g then r else s.rest i, fun j => if j = k then some g else s.own j⟩ else none
  | .unlock k :: r => if s.own k = some g then some ⟨fun i => if i = g then r else s.rest i, fun j => if j = k then none else s.own j⟩ else none
  | _ :: r => some ⟨fun i => if i = g then r else s.rest i, s.own⟩

/-- Goroutines go on, but none of `S`. -/
inductive Steps (S : Nat → Prop) : St K → St K → Prop where
  | refl (s : St K) : Steps S s s
  | tail {s t u : St K} {g : Nat} : Steps S s t → ¬ S g → step t g = some u → Steps S s u

/-- A block: what is done under a mutex, or without one; `true` is a call out. -/
structure Block (K : Type) where
  mutex : Option K
  body : List Bool

/-- The instructions of a block. -/
def Block.code (b : Block K) : List (Instr K) :=
  let m := b.body.map fun o => if o then Instr.out else .act
  match b.mutex with
  | none => m
  | some k => .lock k :: m ++ [.unlock k]

/-- The start: goroutine `g` is to execute `prog g`. -/
def start (prog : Nat → List (Block K)) : St K := ⟨fun g => (prog g).flatMap Block.code, fun _ => none⟩

/-! ### lemmas -/

/-- What remains to be done fits with the mutex that is held, and calls out are made only while those of `P` are held. -/
def Fits (P : K → Prop) : Option K → List (Instr K) → Prop
  | h, [] => h = none
  | h, .lock k :: r => h = none ∧ Fits P (some k) r
  | h, .unlock k :: r => h = some k ∧ Fits P none r
  | h, .act :: r => Fits P h r
  | h, .out :: r => (∀ k, h = some k → P k) ∧ Fits P h r

/-- The invariant. -/
def Inv (P : Nat → K → Prop) (s : St K) : Prop := ∃ held : Nat → Option K, (∀ g, Fits (P g) (held g) (s.rest g)) ∧ ∀ k g, s.own k = some g ↔ held g = some k

/-- The mutexes held while blocks call out. -/
def Holds (l : List (Block K)) (k : K) : Prop := ∃ b ∈ l, b.mutex = some k ∧ true ∈ b.body

omit [DecidableEq K] in
theorem fits_body (P : K → Prop) (h : Option K) (l : List Bool) (r : List (Instr K)) (hP : true ∈ l → ∀ k, h = some k → P k) (hr : Fits P h r) :
    Fits P h (l.map (fun o => if o then Instr.out else .act) ++ r) := by
  induction l with
  | nil => exact hr
  | cons b l ih =>
    have := ih (fun hm => hP (List.mem_cons_of_mem _ hm))
    cases b with
    | false => exact this
    | true => exact ⟨hP List.mem_cons_self, this⟩

omit [DecidableEq K] in
theorem fits_blocks (P : K → Prop) (l : List (Block K)) (hP : ∀ k, Holds l k → P k) : Fits P none (l.flatMap Block.code) := by
  induction l with
  | nil => rfl
  | cons b l ih =>
    have ih := ih (fun k ⟨b', h1, h2⟩ => hP k ⟨b', List.mem_cons_of_mem _ h1, h2⟩)
    rw [List.flatMap_cons]
    unfold Block.code
    cases hb : b.mutex with
    | none => exact fits_body P _ _ _ (fun _ k hk => by cases hk) ih
    | some k =>
      simp only [List.cons_append, List.append_assoc]
      refine ⟨rfl, fits_body P _ _ _ ?_ ⟨rfl, ih⟩⟩
      intro ht j hj
      injection hj with hj; subst hj
      exact hP k ⟨b, List.mem_cons_self, hb, ht⟩

omit [DecidableEq K] in
theorem inv_start (prog : Nat → List (Block K)) : Inv (fun g => Holds (prog g)) (start prog) :=
  ⟨fun _ => none, fun g => fits_blocks _ (prog g) (fun _ h => h), fun k g => by simp [start]⟩

theorem inv_step {P : Nat → K → Prop} {s u : St K} {g : Nat} (hi : Inv P s) (h : step s g = some u) : Inv P u := by
  obtain ⟨held, h1, h2⟩ := hi
  have hg := h1 g
  unfold step at h
  split at h
  · cases h
  · rename_i k r hr
    split at h
    · rename_i hk
      rw [hr] at hg
      injection h with h; subst h
      refine ⟨fun i => if i = g then some k else held i, ?_, ?_⟩
      · intro i
        by_cases hi : i = g
        · subst hi; simpa using hg.2
        · simpa [hi] using h1 i
      · intro j i
        have hn : held g = none := hg.1
        by_cases hj : j = k
        · subst hj
          by_cases hi : i = g
          · subst hi; simp
          · simp only [if_true, Option.some.injEq, hi, if_false]
            constructor
            · intro e; exact absurd e.symm hi
            · intro e; rw [← h2, hk] at e; cases e
        · by_cases hi : i = g
          · subst hi
            simp only [hj, if_false, if_true, Option.some.injEq]
            constructor
            · intro e; rw [h2, hn] at e; cases e
            · intro e; exact absurd e.symm hj
          · simp only [hj, hi, if_false]; exact h2 j i
    · cases h
  · rename_i k r hr
    split at h
    · rename_i hk
      rw [hr] at hg
      injection h with h; subst h
      refine ⟨fun i => if i = g then none else held i, ?_, ?_⟩
      · intro i
        by_cases hi : i = g
        · subst hi; simpa using hg.2
        · simpa [hi] using h1 i
      · intro j i
        have hn : held g = some k := hg.1
        by_cases hj : j = k
        · subst hj
          by_cases hi : i = g
          · subst hi; simp
          · simp only [if_true, reduceCtorEq, hi, if_false, false_iff]
            intro e; rw [← h2, hk] at e; injection e with e; exact hi e.symm
        · by_cases hi : i = g
          · subst hi
            simp only [hj, if_false, if_true, reduceCtorEq, iff_false]
            intro e; rw [h2, hn] at e; injection e with e; exact hj e.symm
          · simp only [hj, hi, if_false]; exact h2 j i
    · cases h
  · rename_i a r hl hu hr
    injection h with h; subst h
    refine ⟨held, ?_, h2⟩
    intro i
    by_cases hi : i = g
    · subst hi
      rw [hr] at hg
      simp only [if_true]
      cases a with
      | lock k => exact (hl k rfl).elim
      | unlock k => exact (hu k rfl).elim
      | act => exact hg
      | out => exact hg.2
    · simpa [hi] using h1 i

theorem inv_steps {P : Nat → K → Prop} {S : Nat → Prop} {s u : St K} (hi : Inv P s) (h : Steps S s u) : Inv P u := by
  induction h with
  | refl => exact hi
  | tail _ _ hs ih => exact inv_step ih hs

theorem Steps.trans {S : Nat → Prop} {s t u : St K} (h1 : Steps S s t) (h2 : Steps S t u) : Steps S s u := by
  induction h2 with
  | refl => exact h1
  | tail _ hg hs ih => exact .tail ih hg hs

/-- One that holds a mutex can be run until it has released it, and nothing else changes. -/
theorem release {P : K → Prop} {S : Nat → Prop} (g : Nat) (hg : ¬ S g) (k : K) : ∀ (r : List (Instr K)) (s : St K), s.rest g = r → Fits P (some k) r → s.own k = some g →
    ∃ u, Steps S s u ∧ (∀ i, i ≠ g → u.rest i = s.rest i) ∧ ∀ j, u.own j = if j = k then none else s.own j
  | [], _, _, hf, _ => by cases hf
  | .lock _ :: _, _, _, hf, _ => by cases hf.1
  | .unlock k' :: r, s, hr, hf, ho => by
    have : k = k' := by have := hf.1; injection this
    subst this
    refine ⟨⟨fun i => if i = g then r else s.rest i, fun j => if j = k then none else s.own j⟩, .tail (.refl s) hg (by simp [step, hr, ho]), ?_, fun _ => rfl⟩
    intro i hi; simp [hi]
  | .act :: r, s, hr, hf, ho => by
    have hs : step s g = some ⟨fun i => if i = g then r else s.rest i, s.own⟩ := by simp [step, hr]
    obtain ⟨u, h1, h2, h3⟩ := release g hg k r ⟨fun i => if i = g then r else s.rest i, s.own⟩ (by simp) hf ho
    refine ⟨u, Steps.trans (.tail (.refl s) hg hs) h1, ?_, h3⟩
    intro i hi; rw [h2 i hi]; simp [hi]
  | .out :: r, s, hr, hf, ho => by
    have hs : step s g = some ⟨fun i => if i = g then r else s.rest i, s.own⟩ := by simp [step, hr]
    obtain ⟨u, h1, h2, h3⟩ := release g hg k r ⟨fun i => if i = g then r else s.rest i, s.own⟩ (by simp) hf.2 ho
    refine ⟨u, Steps.trans (.tail (.refl s) hg hs) h1, ?_, h3⟩
    intro i hi; rw [h2 i hi]; simp [hi]

/-- One whose mutexes are not held by `S` can be finished. -/
theorem finish {P : Nat → K → Prop} {S : Nat → Prop} (g : Nat) (hg : ¬ S g) : ∀ (r : List (Instr K)) (s : St K), Inv P s → s.rest g = r → (∀ k, Instr.lock k ∈ r → ∀ t, s.own k = some t → ¬ S t) →
    ∃ u, Steps S s u ∧ u.rest g = []
  | [], s, _, hr, _ => ⟨s, .refl s, hr⟩
  | a :: r, s, hi, hr, hk => by
    -- after one step of `g`, the mutexes of `S` are as before
    have go : ∀ s' : St K, Steps S s s' → s'.rest g = a :: r → (∀ k t, S t → (s'.own k = some t ↔ s.own k = some t)) → ∀ s'', step s' g = some s'' →
        (∀ k t, S t → (s''.own k = some t ↔ s'.own k = some t)) → s''.rest g = r → ∃ u, Steps S s u ∧ u.rest g = [] := by
      intro s' h1 _ h3 s'' h4 h5 h6
      have h7 : Steps S s s'' := .tail h1 hg h4
      obtain ⟨u, h8, h9⟩ := finish g hg r s'' (inv_steps hi h7) h6 (by
        intro k hm t ht hS
        exact hk k (List.mem_cons_of_mem _ hm) t ((h3 k t hS).1 ((h5 k t hS).1 ht)) hS)
      exact ⟨u, h7.trans h8, h9⟩
    cases a with
    | act => exact go s (.refl s) hr (fun _ _ _ => Iff.rfl) ⟨fun i => if i = g then r else s.rest i, s.own⟩ (by simp [step, hr]) (fun _ _ _ => Iff.rfl) (by simp)
    | out => exact go s (.refl s) hr (fun _ _ _ => Iff.rfl) ⟨fun i => if i = g then r else s.rest i, s.own⟩ (by simp [step, hr]) (fun _ _ _ => Iff.rfl) (by simp)
    | unlock k =>
      obtain ⟨held, h1, h2⟩ := hi
      have hf := h1 g
      rw [hr] at hf
      have ho : s.own k = some g := (h2 k g).2 hf.1
      refine go s (.refl s) hr (fun _ _ _ => Iff.rfl) ⟨fun i => if i = g then r else s.rest i, fun j => if j = k then none else s.own j⟩ (by simp [step, hr, ho]) ?_ (by simp)
      intro j t hS
      by_cases hj : j = k
      · subst hj; simp only [if_true, reduceCtorEq, ho, Option.some.injEq, false_iff]; intro e; exact hg (e ▸ hS)
      · simp [hj]
    | lock k =>
      have lockStep : ∀ s' : St K, Steps S s s' → s'.rest g = .lock k :: r → s'.own k = none → (∀ k t, S t → (s'.own k = some t ↔ s.own k = some t)) → ∃ u, Steps S s u ∧ u.rest g = [] := by
        intro s' h1 h2 h3 h4
        refine go s' h1 h2 h4 ⟨fun i => if i = g then r else s'.rest i, fun j => if j = k then some g else s'.own j⟩ (by simp [step, h2, h3]) ?_ (by simp)
        intro j t hS
        by_cases hj : j = k
        · subst hj; simp only [if_true, Option.some.injEq, h3, reduceCtorEq, iff_false]; intro e; exact hg (e ▸ hS)
        · simp [hj]
      cases ho : s.own k with
      | none => exact lockStep s (.refl s) hr ho (fun _ _ _ => Iff.rfl)
      | some t =>
        have ht : ¬ S t := hk k List.mem_cons_self t ho
        obtain ⟨held, h1, h2⟩ := hi
        have htk : held t = some k := (h2 k t).1 ho
        have hne : g ≠ t := by
          intro e; subst e
          have := h1 g; rw [hr] at this; rw [this.1] at htk; cases htk
        have hft := h1 t
        rw [htk] at hft
        obtain ⟨u, h3, h4, h5⟩ := release t ht k (s.rest t) s rfl hft ho
        refine lockStep u h3 (by rw [h4 g hne, hr]) (by rw [h5]; simp) ?_
        intro j t' hS
        rw [h5]
        by_cases hj : j = k
        · subst hj; simp only [if_true, reduceCtorEq, ho, Option.some.injEq, false_iff]; intro e; exact ht (e ▸ hS)
        · simp [hj]

/-- While one of `S` holds a mutex, nobody gets past locking it. -/
theorem held_up {S : Nat → Prop} {s u : St K} (h : Steps S s u) (k : K) (t g : Nat) (hS : S t) (ho : s.own k = some t) (hm : Instr.lock k ∈ s.rest g) :
    u.own k = some t ∧ Instr.lock k ∈ u.rest g := by
  induction h with
  | refl => exact ⟨ho, hm⟩
  | @tail s' u' g' _ hg' hs ih =>
    obtain ⟨h1, h2⟩ := ih
    have hne : t ≠ g' := fun e => hg' (e ▸ hS)
    unfold step at hs
    split at hs
    · cases hs
    · rename_i k' r hr
      split at hs
      · rename_i hk
        injection hs with hs; subst hs
        have hkk : k ≠ k' := fun e => by rw [e, hk] at h1; cases h1
        refine ⟨by simpa [hkk] using h1, ?_⟩
        by_cases hgg : g = g'
        · subst hgg; rw [hr] at h2; simp only [if_true]
          rcases List.mem_cons.1 h2 with e | e
          · injection e with e; exact absurd e hkk
          · exact e
        · simpa [hgg] using h2
      · cases hs
    · rename_i k' r hr
      split at hs
      · rename_i hk
        injection hs with hs; subst hs
        have hkk : k ≠ k' := fun e => by rw [e, hk] at h1; injection h1 with h1; exact hne h1.symm
        refine ⟨by simpa [hkk] using h1, ?_⟩
        by_cases hgg : g = g'
        · subst hgg; rw [hr] at h2; simp only [if_true]
          rcases List.mem_cons.1 h2 with e | e
          · cases e
          · exact e
        · simpa [hgg] using h2
      · cases hs
    · rename_i a r hl hu hr
      injection hs with hs; subst hs
      refine ⟨h1, ?_⟩
      by_cases hgg : g = g'
      · subst hgg; rw [hr] at h2; simp only [if_true]
        rcases List.mem_cons.1 h2 with e | e
        · exact (hl k e.symm).elim
        · exact e
      · simpa [hgg] using h2

/-- Who waits for those who have stopped: whatever happened so far, and whoever has stopped, a goroutine can be finished without them exactly if they hold none
of the mutexes it has still to lock. -/
theorem waits_iff (prog : Nat → List (Block K)) (s : St K) (hs : Steps (fun _ => False) (start prog) s) (S : Nat → Prop) (g : Nat) (hg : ¬ S g) :
    (∃ u, Steps S s u ∧ u.rest g = []) ↔ ∀ k, Instr.lock k ∈ s.rest g → ∀ t, s.own k = some t → ¬ S t := by
  constructor
  · rintro ⟨u, h1, h2⟩ k hm t ho hS
    have := (held_up h1 k t g hS ho hm).2
    rw [h2] at this; cases this
  · intro h
    exact finish g hg _ s (inv_steps (inv_start prog) hs) rfl h

/-! ### the methods -/

/-- The mutexes: of the registry of metrics, of a series of a histogram, of a series of a counter, of an LRU or Mem cache, of an entry of a request cache, of a store, of a websocket. utils/prom/metric.go L14, histogram.go
L20, counter.go L19, utils/caches/lru.go L12, mem.go L11, request.go L16, storage/keyvalue.go L20, http/ws/ws.go L33. -/
inductive Mx where
  | registry
  | series (n : Nat)
  | counter (n : Nat)
  | cache (i : Nat)
  | entry (i k : Nat)
  | store (i : Nat)
  | conn (i : Nat)
deriving DecidableEq

/-- The calls. `Call.observe` is also made at the end of every http request, for the series of its method, path and status (http/mux.go L36-40, http/server.go L59-63). -/
inductive Call where
  /-- `Histogram.Observe` for series `n` (histogram.go L34-52) -/
  | observe (n : Nat)
  /-- `Counter.Observe` (counter.go L22-31) -/
  | count (n : Nat)
  /-- `Handler` (http.go L8-18): the registry is read, and every metric is printed: a histogram with series `l`, two lines first, and `w` lines for each series (histogram.go L54-126);
  `x` is the number of lines of gauges, counters and custom metrics -/
  | scrape (l : List Nat) (w x : Nat)
  /-- `Get` of an LRU or Mem cache that has the key (lru.go L61-71, mem.go L28-34), `Invalidate` (lru.go L45-58, mem.go L22-26), `Keys` (lru.go L34-43) -/
  | hit (i : Nat)
  /-- `Get` that calls `OnMiss` (lru.go L75-97, mem.go L35-40) -/
  | miss (i : Nat)
  /-- `RequestCache.Request` (request.go L35-71), with or without a fetch; `i` is also the cache inside, and `k` is the entry, which is one of a key until it is invalidated or evicted -/
  | request (i k : Nat) (fetch : Bool)
  /-- `Get`, `Upsert`, `Delete` of a store (keyvalue.go L32-51) -/
  | access (i : Nat)
  /-- `Range` (keyvalue.go L53-87): `n` records are looked at, each time a line is logged, and `m` are given to the function -/
  | range (i n m : Nat)
  /-- `wsImpl.Write` (http/ws/ws.go L39-45) -/
  | send (i : Nat)

/-- What a call does. -/
def Call.blocks : Call → List (Block Mx)
  | .observe n => [⟨some (.series n), [false]⟩]
  | .count n => [⟨some (.counter n), [false]⟩]
  | .scrape l w x => ⟨some .registry, [false]⟩ :: ⟨none, List.replicate x true⟩ :: ⟨none, [true, true]⟩ :: l.map fun n => ⟨some (.series n), List.replicate w true⟩
  | .hit i => [⟨some (.cache i), [false]⟩]
  | .miss i => [⟨some (.cache i), [false, true, false]⟩]
  | .request i k fetch => [⟨some (.cache i), [false]⟩, ⟨some (.entry i k), if fetch then [false, true, false] else [false]⟩]
  | .access i => [⟨some (.store i), [false]⟩]
  | .range i n m => [⟨some (.store i), (List.replicate n [false, true]).flatten⟩, ⟨none, List.replicate m true⟩]
  | .send i => [⟨some (.conn i), [true]⟩]

/-- Goroutine `g` is to make the calls `prog g`; nobody holds a mutex. Which calls of a cache fetch and how many records a range looks at is given with the calls (lru.go L65-66, keyvalue.go L62). -/
def begin (prog : Nat → List Call) : St Mx := start fun g => (prog g).flatMap Call.blocks

/-- A state that is reached, by any interleaving. -/
def Reach (prog : Nat → List Call) (s : St Mx) : Prop := Steps (fun _ => False) (begin prog) s

/-- A goroutine has stopped: it is in a call out. -/
def InCall (s : St Mx) (t : Nat) : Prop := ∃ r, s.rest t = .out :: r

/-- Goroutine `g` can be finished though those of `S` do not go on. -/
def Free (S : Nat → Prop) (s : St Mx) (g : Nat) : Prop := ∃ u, Steps S s u ∧ u.rest g = []

/-! ### theorems -/

/-- A block locks its mutex. -/
theorem lock_mem (b : Block Mx) (k : Mx) : Instr.lock k ∈ b.code ↔ b.mutex = some k := by
  unfold Block.code
  have hm : ∀ l : List Bool, Instr.lock k ∉ l.map (fun o => if o then Instr.out else Instr.act) := by
    intro l h
    obtain ⟨o, -, h⟩ := List.mem_map.1 h
    cases o <;> simp at h
  cases hb : b.mutex with
  | none => simp [hm b.body]
  | some k' =>
    simp only [List.cons_append, List.mem_cons, List.mem_append, hm, Instr.lock.injEq, reduceCtorEq, List.not_mem_nil, or_false, Option.some.injEq]
    exact eq_comm

/-- The mutexes of a call. -/
def Call.uses (c : Call) (k : Mx) : Prop := ∃ b ∈ c.blocks, b.mutex = some k

theorem rest_suffix {prog : Nat → List Call} {s : St Mx} (h : Reach prog s) (g : Nat) : s.rest g <:+ (begin prog).rest g := by
  unfold Reach at h
  generalize begin prog = s0 at h
  induction h with
  | refl => exact List.suffix_refl _
  | @tail s' u' g' _ _ hs ih =>
    have one : ∀ r a own, s'.rest g' = a :: r → (if g = g' then r else s'.rest g) <:+ (⟨s0.rest, own⟩ : St Mx).rest g := by
      intro r a own hr
      by_cases hg : g = g'
      · subst hg; simp only [if_true]; exact (List.suffix_cons a r).trans (hr ▸ ih)
      · simpa [hg] using ih
    unfold step at hs
    split at hs
    · cases hs
    · rename_i k r hr
      split at hs
      · injection hs with hs; subst hs; exact one r _ s0.own hr
      · cases hs
    · rename_i k r hr
      split at hs
      · injection hs with hs; subst hs; exact one r _ s0.own hr
      · cases hs
    · rename_i a r _ _ hr
      injection hs with hs; subst hs; exact one r _ s0.own hr

/-- C188 (partial): whatever has happened, and whoever has stopped, a goroutine none of whose calls uses a mutex that one of them holds can be finished. Missing: those whose calls
do (`C188_iff_partial`, and the violations below). -/
theorem C188_free_partial (prog : Nat → List Call) (s : St Mx) (h : Reach prog s) (S : Nat → Prop) (g : Nat) (hg : ¬ S g)
    (hk : ∀ c ∈ prog g, ∀ k, c.uses k → ∀ t, s.own k = some t → ¬ S t) : Free S s g := by
  refine (waits_iff _ s h S g hg).2 ?_
  intro k hm t ho
  have := (rest_suffix h g).subset hm
  simp only [begin, start, List.mem_flatMap] at this
  obtain ⟨b, ⟨c, hc, hb⟩, hl⟩ := this
  exact hk c hc k ⟨b, hb, (lock_mem b k).1 hl⟩ t ho

/-- C188 (partial): and exactly those can be finished that have still to lock none of these mutexes. Missing: that all can. -/
theorem C188_iff_partial (prog : Nat → List Call) (s : St Mx) (h : Reach prog s) (S : Nat → Prop) (g : Nat) (hg : ¬ S g) :
    Free S s g ↔ ∀ k, Instr.lock k ∈ s.rest g → ∀ t, s.own k = some t → ¬ S t := waits_iff _ s h S g hg

/-- C188 (partial): what goroutines hold while they are in calls out: scrapes hold the series they write, lookups the cache they fetch for, requests the entry they fetch, ranges the store
while they log, and senders their connection. So observations wait only for scrapes, of that series, lookups only for fetches for that cache, requests only for fetches of that entry,
senders only for senders on that connection, and nobody waits for the registry, for counters, or for the function given to `Range`. -/
theorem C188_holders_partial (prog : Nat → List Call) (s : St Mx) (h : Reach prog s) (t : Nat) (hc : InCall s t) (k : Mx) (ho : s.own k = some t) :
    (∃ n l w x, k = .series n ∧ n ∈ l ∧ Call.scrape l w x ∈ prog t) ∨ (∃ i, k = .cache i ∧ Call.miss i ∈ prog t) ∨ (∃ i j, k = .entry i j ∧ Call.request i j true ∈ prog t) ∨
    (∃ i n m, k = .store i ∧ 0 < n ∧ Call.range i n m ∈ prog t) ∨ ∃ i, k = .conn i ∧ Call.send i ∈ prog t := by
  obtain ⟨held, h1, h2⟩ := inv_steps (inv_start _) h
  obtain ⟨r, hr⟩ := hc
  have hf := h1 t
  rw [hr, (h2 k t).1 ho] at hf
  obtain ⟨b, hb, hm, ht⟩ := hf.1 k rfl
  obtain ⟨c, hcp, hbc⟩ := List.mem_flatMap.1 hb
  cases c with
  | observe n => simp only [Call.blocks, List.mem_singleton] at hbc; subst hbc; simp at ht
  | count n => simp only [Call.blocks, List.mem_singleton] at hbc; subst hbc; simp at ht
  | scrape l w x =>
    simp only [Call.blocks, List.mem_cons, List.mem_map] at hbc
    rcases hbc with rfl | rfl | rfl | ⟨n, hn, rfl⟩
    · simp at ht
    · cases hm
    · cases hm
    · injection hm with hm
      exact .inl ⟨n, l, w, x, hm.symm, hn, hcp⟩
  | hit i => simp only [Call.blocks, List.mem_singleton] at hbc; subst hbc; simp at ht
  | miss i =>
    simp only [Call.blocks, List.mem_singleton] at hbc; subst hbc
    injection hm with hm
    exact .inr (.inl ⟨i, hm.symm, hcp⟩)
  | request i j fetch =>
    simp only [Call.blocks, List.mem_cons, List.not_mem_nil, or_false] at hbc
    rcases hbc with rfl | rfl
    · simp at ht
    · injection hm with hm
      cases fetch with
      | false => simp at ht
      | true => exact .inr (.inr (.inl ⟨i, j, hm.symm, hcp⟩))
  | access i => simp only [Call.blocks, List.mem_singleton] at hbc; subst hbc; simp at ht
  | range i n m =>
    simp only [Call.blocks, List.mem_cons, List.not_mem_nil, or_false] at hbc
    rcases hbc with rfl | rfl
    · injection hm with hm
      cases n with
      | zero => simp at ht
      | succ n => exact .inr (.inr (.inr (.inl ⟨i, n + 1, m, hm.symm, by omega, hcp⟩)))
    · cases hm
  | send i =>
    simp only [Call.blocks, List.mem_singleton] at hbc; subst hbc
    injection hm with hm
    exact .inr (.inr (.inr (.inr ⟨i, hm.symm, hcp⟩)))

/-- C188 (partial): goroutines that only observe counters, or histograms whose series nobody scrapes, or use caches, entries, stores and connections that no stopped goroutine has to do with,
are finished whoever has stopped. -/
theorem C188_apart_partial (prog : Nat → List Call) (s : St Mx) (h : Reach prog s) (S : Nat → Prop) (hS : ∀ t, S t → InCall s t) (g : Nat) (hg : ¬ S g)
    (ha : ∀ c ∈ prog g, ∀ k, c.uses k → ∀ t, S t → ∀ c' ∈ prog t, ∀ b ∈ c'.blocks, true ∈ b.body → b.mutex ≠ some k) : Free S s g := by
  refine C188_free_partial prog s h S g hg ?_
  intro c hc k hk t ho hSt
  obtain ⟨held, h1, h2⟩ := inv_steps (inv_start _) h
  obtain ⟨r, hr⟩ := hS t hSt
  have hf := h1 t
  rw [hr, (h2 k t).1 ho] at hf
  obtain ⟨b, hb, hm, ht⟩ := hf.1 k rfl
  obtain ⟨c', hcp, hbc⟩ := List.mem_flatMap.1 hb
  exact ha c hc k hk t hSt c' hcp b hbc ht hm

/-- Running a goroutine that is alone up to a point. -/
theorem run_to {prog : Nat → List Call} (t : Nat) : ∀ (p q : List (Instr Mx)) (s : St Mx), Reach prog s → s.rest t = p ++ q → (∀ a ∈ p, a = .act ∨ a = .out) →
    ∃ u, Reach prog u ∧ u.rest t = q ∧ (∀ i, i ≠ t → u.rest i = s.rest i) ∧ u.own = s.own
  | [], q, s, h, hr, _ => ⟨s, h, hr, fun _ _ => rfl, rfl⟩
  | a :: p, q, s, h, hr, hp => by
    have hs : step s t = some ⟨fun i => if i = t then p ++ q else s.rest i, s.own⟩ := by
      rcases hp a List.mem_cons_self with rfl | rfl <;> simp [step, hr]
    obtain ⟨u, h1, h2, h3, h4⟩ := run_to t p q _ (.tail h id hs) (by simp) (fun a ha => hp a (List.mem_cons_of_mem _ ha))
    exact ⟨u, h1, h2, fun i hi => by rw [h3 i hi]; simp [hi], h4⟩

/-- A goroutine that is about to do a block with a free mutex can be stopped in the first call out of it. -/
theorem stop_in {prog : Nat → List Call} (s : St Mx) (h : Reach prog s) (t : Nat) (k : Mx) (p : List Bool) (q : List (Instr Mx)) (hp : true ∉ p) (ho : s.own k = none)
    (hr : s.rest t = .lock k :: (p.map (fun o => if o then Instr.out else .act) ++ .out :: q)) :
    ∃ u, Reach prog u ∧ InCall u t ∧ u.own k = some t ∧ ∀ i, i ≠ t → u.rest i = s.rest i := by
  have hs : step s t = some ⟨fun i => if i = t then p.map (fun o => if o then Instr.out else .act) ++ .out :: q else s.rest i, fun j => if j = k then some t else s.own j⟩ := by
    simp [step, hr, ho]
  obtain ⟨u, h1, h2, h3, h4⟩ := run_to t (p.map (fun o => if o then Instr.out else .act)) (.out :: q) _ (.tail h id hs) (by simp) (by
    intro a ha
    obtain ⟨o, ho, rfl⟩ := List.mem_map.1 ha
    cases o with
    | true => exact absurd ho hp
    | false => exact .inl rfl)
  exact ⟨u, h1, ⟨q, h2⟩, by rw [h4]; simp, fun i hi => by rw [h3 i hi]; simp [hi]⟩

/-- A goroutine that has begun nothing but is to use a mutex held by one that has stopped can not be finished. -/
theorem waits {prog : Nat → List Call} (u : St Mx) (h : Reach prog u) (t g : Nat) (hne : g ≠ t) (k : Mx) (ho : u.own k = some t) (hg : u.rest g = (begin prog).rest g)
    (hu : ∃ c ∈ prog g, c.uses k) : ¬ Free (· = t) u g := by
  intro hf
  obtain ⟨c, hc, b, hb, hm⟩ := hu
  refine (waits_iff _ u h (· = t) g hne).1 hf k ?_ t ho rfl
  rw [hg]
  simp only [begin, start, List.mem_flatMap]
  exact ⟨b, ⟨c, hc, hb⟩, (lock_mem b k).2 hm⟩

/-- C188 (violated): a scraper that stops reading holds up requests. Whatever the goroutines are to do, if goroutine 0 is to scrape a histogram of which `n` is the series the iteration begins with, there is a state
in which it is writing, and in which no goroutine that has still to observe something for this series, as every request of this method, path and status has in the end, can be finished until it goes on. -/
theorem C188_scrape_violated (prog : Nat → List Call) (n w x : Nat) (cs : List Call) (l : List Nat) (h0 : prog 0 = .scrape (n :: l) (w + 1) x :: cs) :
    ∃ s, Reach prog s ∧ InCall s 0 ∧ ∀ g, g ≠ 0 → Call.observe n ∈ prog g → ¬ Free (· = 0) s g := by
  have e0 : (begin prog).rest 0 = [.lock .registry, .act, .unlock .registry] ++ (List.replicate x .out ++ [.out, .out]) ++
      (.lock (.series n) :: (([] : List Bool).map (fun o => if o then Instr.out else .act) ++ .out :: (List.replicate w .out ++ .unlock (.series n) :: ((l.map fun n => (⟨some (.series n), List.replicate (w + 1) true⟩ : Block Mx)) ++ cs.flatMap Call.blocks).flatMap Block.code))) := by
    simp [begin, start, h0, Call.blocks, Block.code, List.replicate_succ, Function.comp_def, List.flatMap_map]
  -- the registry
  obtain ⟨s1, r1, e1, f1, o1⟩ : ∃ s1, Reach prog s1 ∧ s1.rest 0 = (List.replicate x .out ++ [.out, .out]) ++
      (.lock (.series n) :: (([] : List Bool).map (fun o => if o then Instr.out else .act) ++ .out :: (List.replicate w .out ++ .unlock (.series n) :: ((l.map fun n => (⟨some (.series n), List.replicate (w + 1) true⟩ : Block Mx)) ++ cs.flatMap Call.blocks).flatMap Block.code))) ∧
      (∀ i, i ≠ 0 → s1.rest i = (begin prog).rest i) ∧ ∀ k, s1.own k = none := by
    generalize (.lock (.series n) :: (([] : List Bool).map (fun o => if o then Instr.out else Instr.act) ++ .out :: (List.replicate w .out ++ .unlock (.series n) :: ((l.map fun n => (⟨some (.series n), List.replicate (w + 1) true⟩ : Block Mx)) ++ cs.flatMap Call.blocks).flatMap Block.code)) : List (Instr Mx)) = q at e0 ⊢
    have a1 : step (begin prog) 0 = some ⟨fun i => if i = 0 then [.act, .unlock .registry] ++ ((List.replicate x .out ++ [.out, .out]) ++ q) else (begin prog).rest i, fun j => if j = .registry then some 0 else none⟩ := by
      simp only [step, e0]; simp [begin, start]
    refine ⟨_, .tail (.tail (.tail (.refl _) id a1) id (g := 0) (by simp only [step]; rfl)) id (g := 0) (by simp only [step]; rfl), ?_, ?_, ?_⟩
    · rfl
    · intro i hi; simp [hi]
    · intro k; simp only; split <;> simp_all
  obtain ⟨s2, r2, e2, f2, o2⟩ := run_to 0 _ _ s1 r1 e1 (by
    intro a ha
    simp only [List.mem_append, List.mem_replicate, List.mem_cons, List.not_mem_nil, or_false, or_self] at ha
    rcases ha with ⟨-, rfl⟩ | rfl <;> exact .inr rfl)
  obtain ⟨s, h1, h2, h3, h4⟩ := stop_in s2 r2 0 (.series n) [] _ (by simp) (by rw [o2]; exact o1 _) e2
  refine ⟨s, h1, h2, ?_⟩
  intro g hg hc
  exact waits s h1 0 g hg (.series n) h3 (by rw [h4 g hg, f2 g hg, f1 g hg]) ⟨_, hc, ⟨_, List.mem_singleton.2 rfl, rfl⟩⟩

/-- C188 (violated): a fetch that does not return holds up all calls of its cache, for other keys, for keys that are there, and `Invalidate`. -/
theorem C188_cache_violated (prog : Nat → List Call) (i : Nat) (cs : List Call) (h0 : prog 0 = .miss i :: cs) :
    ∃ s, Reach prog s ∧ InCall s 0 ∧ ∀ g, g ≠ 0 → Call.hit i ∈ prog g ∨ Call.miss i ∈ prog g → ¬ Free (· = 0) s g := by
  obtain ⟨s, h1, h2, h3, h4⟩ := stop_in (prog := prog) (begin prog) (.refl _) 0 (.cache i) [false] _ (by simp) rfl
    (by simp [begin, start, h0, Call.blocks, Block.code]; rfl)
  refine ⟨s, h1, h2, fun g hg hc => ?_⟩
  rcases hc with hc | hc
  · exact waits s h1 0 g hg (.cache i) h3 (h4 g hg) ⟨_, hc, ⟨_, List.mem_singleton.2 rfl, rfl⟩⟩
  · exact waits s h1 0 g hg (.cache i) h3 (h4 g hg) ⟨_, hc, ⟨_, List.mem_singleton.2 rfl, rfl⟩⟩

/-- C188 (violated): a logger that does not return, called by `Range`, holds up all other calls of the store. -/
theorem C188_store_violated (prog : Nat → List Call) (i n m : Nat) (cs : List Call) (h0 : prog 0 = .range i (n + 1) m :: cs) :
    ∃ s, Reach prog s ∧ InCall s 0 ∧ ∀ g, g ≠ 0 → Call.access i ∈ prog g → ¬ Free (· = 0) s g := by
  obtain ⟨s, h1, h2, h3, h4⟩ := stop_in (prog := prog) (begin prog) (.refl _) 0 (.store i) [false] _ (by simp) rfl
    (by simp [begin, start, h0, Call.blocks, Block.code, List.replicate_succ]; rfl)
  refine ⟨s, h1, h2, fun g hg hc => ?_⟩
  exact waits s h1 0 g hg (.store i) h3 (h4 g hg) ⟨_, hc, ⟨_, List.mem_singleton.2 rfl, rfl⟩⟩

/-! ### examples -/

/-- A scrape, requests for two series, a fetch, lookups, and a range. -/
def exProg : Nat → List Call
  | 0 => [.scrape [1] 4 3]
  | 1 => [.observe 2, .hit 7, .count 1, .range 3 5 2, .observe 3]
  | 2 => [.observe 1]
  | 3 => [.request 5 0 true]
  | 4 => [.request 5 1 true, .request 5 1 false, .send 0]
  | 5 => [.miss 8]
  | _ => []

-- whatever has happened, and wherever the scraper, the fetch for entry 0 and the fetch for cache 8 have stopped, goroutines 1 and 4 can be finished
example (s : St Mx) (h : Reach exProg s) (S : Nat → Prop) (hS : ∀ t, S t → InCall s t ∧ (t = 0 ∨ t = 3 ∨ t = 5)) : Free S s 1 ∧ Free S s 4 := by
  have n1 : ¬ S 1 := fun h1 => by have := (hS 1 h1).2; omega
  have n4 : ¬ S 4 := fun h1 => by have := (hS 4 h1).2; omega
  constructor
  · refine C188_apart_partial exProg s h S (fun t ht => (hS t ht).1) 1 n1 ?_
    intro c hc k hk t hSt c' hc' b hb hT
    rcases (hS t hSt).2 with rfl | rfl | rfl <;>
    · simp only [exProg, List.mem_cons, List.not_mem_nil, or_false] at hc hc'
      subst hc'
      rcases hc with rfl | rfl | rfl | rfl | rfl <;>
      · simp [Call.uses, Call.blocks] at hk hb
        subst hk
        intro e
        rcases hb with rfl | rfl | rfl | rfl <;> simp_all
  · refine C188_apart_partial exProg s h S (fun t ht => (hS t ht).1) 4 n4 ?_
    intro c hc k hk t hSt c' hc' b hb hT
    rcases (hS t hSt).2 with rfl | rfl | rfl <;>
    · simp only [exProg, List.mem_cons, List.not_mem_nil, or_false] at hc hc'
      subst hc'
      rcases hc with rfl | rfl | rfl <;>
      · simp [Call.uses, Call.blocks] at hk hb
        intro e
        rcases hb with rfl | rfl | rfl | rfl <;> simp at e hT <;> subst e <;> simp at hk
-- but goroutine 2 may have to wait
example : ∃ s, Reach exProg s ∧ InCall s 0 ∧ ¬ Free (· = 0) s 2 := by
  obtain ⟨s, h1, h2, h3⟩ := C188_scrape_violated exProg 1 3 3 [] [] rfl
  exact ⟨s, h1, h2, h3 2 (by decide) (by simp [exProg])⟩
-- what calls do, one by one
example : Call.blocks (.range 0 2 1) = [⟨some (.store 0), [false, true, false, true]⟩, ⟨none, [true]⟩] := rfl
example : (Call.blocks (.miss 3)).flatMap Block.code = [.lock (.cache 3), .act, .out, .act, .unlock (.cache 3)] := rfl
example : (Call.blocks (.request 5 1 true)).flatMap Block.code = [.lock (.cache 5), .act, .unlock (.cache 5), .lock (.entry 5 1), .act, .out, .act, .unlock (.entry 5 1)] := rfl
example : (Call.blocks (.request 5 1 false)).flatMap Block.code = [.lock (.cache 5), .act, .unlock (.cache 5), .lock (.entry 5 1), .act, .unlock (.entry 5 1)] := rfl
example : (Call.blocks (.scrape [4, 5] 2 1)).flatMap Block.code = [.lock .registry, .act, .unlock .registry, .out, .out, .out, .lock (.series 4), .out, .out, .unlock (.series 4),
    .lock (.series 5), .out, .out, .unlock (.series 5)] := rfl

end Verif.Sync.Stall

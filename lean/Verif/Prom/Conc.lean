import Verif.Prom.Props
/-!
# Observing and scraping at the same time (utils/prom/counter.go, histogram.go)

Goroutines observe and scrape series, in any interleaving. A series is a pointer in a `sync.Map`, whose `LoadOrStore` is atomic, to a cell with a lock. An observation changes the
cell in two writes (the first may leave it in any state); a scrape reads it, with or without the lock. Locks are fair to nobody. Memory is sequentially consistent: the read without a
lock is a data race, of which Go promises for one word that some written value is read.
-/
set_option autoImplicit false
namespace Verif.Prom.Conc

/-- A kind of metric: a new series, the first and the second write of an observation, and whether a scrape takes the lock. counter.go L27-32, L34-63; histogram.go L38-54, L74-76. -/
structure Kind (σ ω : Type) where
  init : σ
  mid : σ → ω → σ
  app : σ → ω → σ
  locks : Bool

/-- What a goroutine does next: an observation of a series, or a scrape of it, if it exists. counter.go L23-25, L34-36; histogram.go L33-36, L56-58. -/
inductive Job (κ ω : Type) where
  | observe (k : κ) (x : ω)
  | scrape (k : κ)

/-- Where a goroutine is: between calls; with the pointer; with the lock; after the first write, of which it knows the value before; after the second; the same for a scrape. -/
inductive Pc (κ σ ω : Type) where
  | idle
  | got (k : κ) (x : ω) (p : Nat)
  | held (k : κ) (x : ω) (p : Nat)
  | half (k : κ) (x : ω) (p : Nat) (old : σ)
  | wrote (k : κ) (x : ω) (p : Nat)
  | sGot (k : κ) (p : Nat)
  | sHeld (k : κ) (p : Nat)
  | sRead (k : κ) (p : Nat)

/-- A goroutine. counter.go L23-63. -/
structure Thread (κ σ ω : Type) where
  todo : List (Job κ ω)
  pc : Pc κ σ ω

/-- `counter`, `histogramTS`: counter.go L18-21, histogram.go L21-26. -/
structure Cell (σ : Type) where
  val : σ
  lock : Option Nat

/-- The map, the cells, the goroutines. counter.go L10-21. -/
structure St (κ σ ω : Type) where
  map : κ → Option Nat
  heap : Nat → Cell σ
  next : Nat
  thr : Nat → Thread κ σ ω

/-- What can be seen of an execution: calls of `Observe` and their returns, the moment of the second write, and what a scrape reads. -/
inductive Ev (κ σ ω : Type) where
  | call (t : Nat) (k : κ) (x : ω)
  | commit (t : Nat) (k : κ) (x : ω)
  | ret (t : Nat) (k : κ) (x : ω)
  | read (t : Nat) (k : κ) (v : σ)

section
variable {κ σ ω : Type} [DecidableEq κ]

/-- A function changed at one place. -/
def upd {α β : Type} [DecidableEq α] (f : α → β) (a : α) (b : β) : α → β := fun x => if x = a then b else f x

/-- A step of a goroutine, unless it waits or has nothing to do. counter.go L23-32, L34-63; histogram.go L33-54, L56-76. -/
def step (K : Kind σ ω) (s : St κ σ ω) (t : Nat) : Option (St κ σ ω × List (Ev κ σ ω)) :=
  let go (pc : Pc κ σ ω) : Nat → Thread κ σ ω := upd s.thr t ⟨(s.thr t).todo, pc⟩
  match (s.thr t).pc with
  | .idle => match (s.thr t).todo with
    | [] => none
    | .observe k x :: l => match s.map k with
      | some p => some ({ s with thr := upd s.thr t ⟨l, .got k x p⟩ }, [.call t k x])
      | none => some ({ map := upd s.map k (some s.next), heap := upd s.heap s.next ⟨K.init, none⟩, next := s.next + 1, thr := upd s.thr t ⟨l, .got k x s.next⟩ }, [.call t k x])
    | .scrape k :: l => match s.map k with
      | some p => some ({ s with thr := upd s.thr t ⟨l, .sGot k p⟩ }, [])
      | none => some ({ s with thr := upd s.thr t ⟨l, .idle⟩ }, [])
  | .got k x p => match (s.heap p).lock with
    | none => some ({ s with heap := upd s.heap p ⟨(s.heap p).val, some t⟩, thr := go (.held k x p) }, [])
    | some _ => none
  | .held k x p => some ({ s with heap := upd s.heap p ⟨K.mid (s.heap p).val x, (s.heap p).lock⟩, thr := go (.half k x p (s.heap p).val) }, [])
  | .half k x p old => some ({ s with heap := upd s.heap p ⟨K.app old x, (s.heap p).lock⟩, thr := go (.wrote k x p) }, [.commit t k x])
  | .wrote k x p => some ({ s with heap := upd s.heap p ⟨(s.heap p).val, none⟩, thr := go .idle }, [.ret t k x])
  | .sGot k p => if K.locks then match (s.heap p).lock with
      | none => some ({ s with heap := upd s.heap p ⟨(s.heap p).val, some t⟩, thr := go (.sHeld k p) }, [])
      | some _ => none
    else some ({ s with thr := go .idle }, [.read t k (s.heap p).val])
  | .sHeld k p => some ({ s with thr := go (.sRead k p) }, [.read t k (s.heap p).val])
  | .sRead _ p => some ({ s with heap := upd s.heap p ⟨(s.heap p).val, none⟩, thr := go .idle }, [])

/-- An interleaving: which goroutine is scheduled next; nothing happens if it can not go on. -/
def run (K : Kind σ ω) : St κ σ ω × List (Ev κ σ ω) → List Nat → St κ σ ω × List (Ev κ σ ω)
  | s, [] => s
  | (s, tr), t :: l => match step K s t with
    | some (s', e) => run K (s', tr ++ e) l
    | none => run K (s, tr) l

/-- No series yet; what each goroutine will do. -/
def start (K : Kind σ ω) (prog : Nat → List (Job κ ω)) : St κ σ ω := ⟨fun _ => none, fun _ => ⟨K.init, none⟩, 0, fun t => ⟨prog t, .idle⟩⟩

/-! ### specification -/

/-- The observations of a series that took effect. -/
def commits (k : κ) : List (Ev κ σ ω) → List ω
  | [] => []
  | .commit _ k' x :: l => if k' = k then x :: commits k l else commits k l
  | _ :: l => commits k l

/-- The value of a series after observations, one after the other. -/
def value (K : Kind σ ω) (l : List ω) : σ := l.foldl K.app K.init

omit [DecidableEq κ] in
theorem upd_same {α β : Type} [DecidableEq α] (f : α → β) (a : α) (b : β) : upd f a b a = b := if_pos rfl

theorem commits_append (k : κ) : ∀ a b : List (Ev κ σ ω), commits k (a ++ b) = commits k a ++ commits k b
  | [], b => rfl
  | .commit _ k' x :: a, b => by
    simp only [List.cons_append, commits, commits_append k a b]
    split <;> rfl
  | .call _ _ _ :: a, b => by simpa only [List.cons_append, commits] using commits_append k a b
  | .ret _ _ _ :: a, b => by simpa only [List.cons_append, commits] using commits_append k a b
  | .read _ _ _ :: a, b => by simpa only [List.cons_append, commits] using commits_append k a b

/-! ### the invariant -/

/-- The lock a goroutine has. -/
def Pc.holds : Pc κ σ ω → Option Nat
  | .held _ _ p | .half _ _ p _ | .wrote _ _ p | .sHeld _ p | .sRead _ p => some p
  | _ => none

/-- The series it works on. -/
def Pc.on : Pc κ σ ω → Option (κ × Nat)
  | .idle => none
  | .got k _ p | .held k _ p | .half k _ p _ | .wrote k _ p | .sGot k p | .sHeld k p | .sRead k p => some (k, p)

/-- What is true at every moment of an execution with this trace. -/
structure Inv (K : Kind σ ω) (s : St κ σ ω) (tr : List (Ev κ σ ω)) : Prop where
  ptr : ∀ k p, s.map k = some p → p < s.next
  inj : ∀ k k' p, s.map k = some p → s.map k' = some p → k = k'
  on : ∀ t k p, (s.thr t).pc.on = some (k, p) → s.map k = some p
  lock : ∀ p t, p < s.next → ((s.heap p).lock = some t ↔ (s.thr t).pc.holds = some p)
  half : ∀ t k x p old, (s.thr t).pc = .half k x p old → old = value K (commits k tr) ∧ (s.heap p).val = K.mid old x
  val : ∀ k p, s.map k = some p → (s.heap p).val = value K (commits k tr) ∨ ∃ t x old, (s.thr t).pc = .half k x p old
  new : ∀ k, s.map k = none → commits k tr = []

theorem value_snoc (K : Kind σ ω) (l : List ω) (x : ω) : value K (l ++ [x]) = K.app (value K l) x := by simp [value]

theorem inv_start (K : Kind σ ω) (prog : Nat → List (Job κ ω)) : Inv K (start K prog) [] := by
  constructor <;> simp [start, Pc.on, Pc.holds, commits]

theorem inv_step (K : Kind σ ω) (s s' : St κ σ ω) (tr e : List (Ev κ σ ω)) (t : Nat) (hi : Inv K s tr) (hs : step K s t = some (s', e)) : Inv K s' (tr ++ e) := by
  obtain ⟨h1, h2, h3, h4, h5, h6, h7⟩ := hi
  have h8 : ∀ t p, (s.thr t).pc.holds = some p → p < s.next := by
    intro t p hp
    cases hpc : (s.thr t).pc <;> simp only [hpc, Pc.holds, Option.some.injEq, reduceCtorEq] at hp <;> subst hp <;> exact h1 _ _ (h3 t _ _ (by rw [hpc]; rfl))
  have h9 : ∀ t k x p old, (s.thr t).pc = .half k x p old → (s.thr t).pc.holds = some p ∧ s.map k = some p := fun t k x p old h => ⟨by rw [h]; rfl, h3 t k p (by rw [h]; rfl)⟩
  have h10 : ∀ t u p, (s.thr t).pc.holds = some p → (s.thr u).pc.holds = some p → t = u := by
    intro t u p ht hu
    have a := (h4 p t (h8 t p ht)).2 ht
    rw [(h4 p u (h8 t p ht)).2 hu] at a
    exact (Option.some.inj a).symm
  unfold step at hs
  cases hpc : (s.thr t).pc with
  | idle =>
    simp only [hpc] at hs
    cases htd : (s.thr t).todo with
    | nil => simp [htd] at hs
    | cons j l =>
      simp only [htd] at hs
      cases j with
      | observe k x =>
        simp only at hs
        cases hm : s.map k with
        | some p =>
          simp only [hm, Option.some.injEq, Prod.mk.injEq] at hs
          obtain ⟨rfl, rfl⟩ := hs
          constructor <;> simp only [upd, commits_append, commits, List.append_nil] <;> grind [Pc.on, Pc.holds, value_snoc, value]
        | none =>
          simp only [hm, Option.some.injEq, Prod.mk.injEq] at hs
          obtain ⟨rfl, rfl⟩ := hs
          constructor <;> simp only [upd, commits_append, commits, List.append_nil] <;> grind [Pc.on, Pc.holds, value_snoc, value]
      | scrape k =>
        simp only at hs
        cases hm : s.map k with
        | some p =>
          simp only [hm, Option.some.injEq, Prod.mk.injEq] at hs
          obtain ⟨rfl, rfl⟩ := hs
          constructor <;> simp only [upd, commits_append, commits, List.append_nil] <;> grind [Pc.on, Pc.holds, value_snoc, value]
        | none =>
          simp only [hm, Option.some.injEq, Prod.mk.injEq] at hs
          obtain ⟨rfl, rfl⟩ := hs
          constructor <;> simp only [upd, commits_append, commits, List.append_nil] <;> grind [Pc.on, Pc.holds, value_snoc, value]
  | got k x p =>
    simp only [hpc] at hs
    have hon := h3 t k p (by rw [hpc]; rfl)
    cases hl : (s.heap p).lock with
    | some u => simp [hl] at hs
    | none =>
      simp only [hl, Option.some.injEq, Prod.mk.injEq] at hs
      obtain ⟨rfl, rfl⟩ := hs
      constructor <;> simp only [upd, commits_append, commits, List.append_nil] <;> grind [Pc.on, Pc.holds, value_snoc, value]
  | held k x p =>
    simp only [hpc, Option.some.injEq, Prod.mk.injEq] at hs
    obtain ⟨rfl, rfl⟩ := hs
    have hon := h3 t k p (by rw [hpc]; rfl)
    have hh : (s.thr t).pc.holds = some p := by rw [hpc]; rfl
    have hv : (s.heap p).val = value K (commits k tr) := by
      rcases h6 k p hon with h | ⟨u, y, o, hu⟩
      · exact h
      · have := h10 t u p hh (h9 u k y p o hu).1
        grind
    have hx : upd s.thr t ⟨(s.thr t).todo, Pc.half k x p (s.heap p).val⟩ t = ⟨(s.thr t).todo, Pc.half k x p (s.heap p).val⟩ := upd_same _ _ _
    constructor
    case val =>
      intro k' p' hk
      by_cases hp : p' = p
      · exact Or.inr ⟨t, x, (s.heap p).val, by simp only [upd_same]; grind⟩
      · rcases h6 k' p' hk with h | ⟨u, y, o, hu⟩
        · left
          simp only [upd, if_neg hp, h, commits_append, commits, List.append_nil]
        · right
          refine ⟨u, y, o, ?_⟩
          simp only [upd]
          grind
    all_goals clear hx
    all_goals simp only [upd, commits_append, commits, List.append_nil] <;> grind [Pc.on, Pc.holds, value_snoc, value]
  | half k x p old =>
    simp only [hpc, Option.some.injEq, Prod.mk.injEq] at hs
    obtain ⟨rfl, rfl⟩ := hs
    have hon := h3 t k p (by rw [hpc]; rfl)
    have hh : (s.thr t).pc.holds = some p := by rw [hpc]; rfl
    have hv := h5 t k x p old hpc
    have hn : ∀ u k' y o, (s.thr u).pc = .half k' y p o → u = t := fun u k' y o hu => h10 u t p (h9 u k' y p o hu).1 hh
    constructor <;> simp only [upd, commits_append, commits, List.append_nil] <;> grind [Pc.on, Pc.holds, value_snoc, value]
  | wrote k x p =>
    simp only [hpc, Option.some.injEq, Prod.mk.injEq] at hs
    obtain ⟨rfl, rfl⟩ := hs
    have hon := h3 t k p (by rw [hpc]; rfl)
    constructor <;> simp only [upd, commits_append, commits, List.append_nil] <;> grind [Pc.on, Pc.holds, value_snoc, value]
  | sGot k p =>
    simp only [hpc] at hs
    have hon := h3 t k p (by rw [hpc]; rfl)
    cases hk : K.locks with
    | false =>
      simp only [hk, Bool.false_eq_true, if_false, Option.some.injEq, Prod.mk.injEq] at hs
      obtain ⟨rfl, rfl⟩ := hs
      constructor <;> simp only [upd, commits_append, commits, List.append_nil] <;> grind [Pc.on, Pc.holds, value_snoc, value]
    | true =>
      cases hl : (s.heap p).lock with
      | some u => simp [hk, hl] at hs
      | none =>
        simp only [hk, hl, if_true, Option.some.injEq, Prod.mk.injEq] at hs
        obtain ⟨rfl, rfl⟩ := hs
        constructor <;> simp only [upd, commits_append, commits, List.append_nil] <;> grind [Pc.on, Pc.holds, value_snoc, value]
  | sHeld k p =>
    simp only [hpc, Option.some.injEq, Prod.mk.injEq] at hs
    obtain ⟨rfl, rfl⟩ := hs
    have hon := h3 t k p (by rw [hpc]; rfl)
    constructor <;> simp only [upd, commits_append, commits, List.append_nil] <;> grind [Pc.on, Pc.holds, value_snoc, value]
  | sRead k p =>
    simp only [hpc, Option.some.injEq, Prod.mk.injEq] at hs
    obtain ⟨rfl, rfl⟩ := hs
    have hon := h3 t k p (by rw [hpc]; rfl)
    constructor <;> simp only [upd, commits_append, commits, List.append_nil] <;> grind [Pc.on, Pc.holds, value_snoc, value]

/-! ### what was called, took effect and returned -/

/-- The calls of `Observe` by a goroutine. -/
def calls (t : Nat) (tr : List (Ev κ σ ω)) : List (κ × ω) := tr.filterMap fun
  | .call t' k x => if t' = t then some (k, x) else none
  | _ => none

/-- Its observations that took effect. -/
def took (t : Nat) (tr : List (Ev κ σ ω)) : List (κ × ω) := tr.filterMap fun
  | .commit t' k x => if t' = t then some (k, x) else none
  | _ => none

/-- Its calls of `Observe` that returned. -/
def rets (t : Nat) (tr : List (Ev κ σ ω)) : List (κ × ω) := tr.filterMap fun
  | .ret t' k x => if t' = t then some (k, x) else none
  | _ => none

/-- The observations among what a goroutine will do. -/
def observations (l : List (Job κ ω)) : List (κ × ω) := l.filterMap fun
  | .observe k x => some (k, x)
  | .scrape _ => none

/-- Called, and not in effect yet. -/
def Pc.before : Pc κ σ ω → List (κ × ω)
  | .got k x _ | .held k x _ | .half k x _ _ => [(k, x)]
  | _ => []

/-- In effect, and not returned yet. -/
def Pc.after : Pc κ σ ω → List (κ × ω)
  | .wrote k x _ => [(k, x)]
  | _ => []

/-- The history of each goroutine, by where it is. -/
def Hist (prog : Nat → List (Job κ ω)) (s : St κ σ ω) (tr : List (Ev κ σ ω)) : Prop :=
  ∀ t, observations (prog t) = calls t tr ++ observations (s.thr t).todo ∧ calls t tr = took t tr ++ (s.thr t).pc.before ∧ took t tr = rets t tr ++ (s.thr t).pc.after

theorem hist_step (K : Kind σ ω) (prog : Nat → List (Job κ ω)) (s s' : St κ σ ω) (tr e : List (Ev κ σ ω)) (t : Nat) (h : Hist prog s tr) (hs : step K s t = some (s', e)) :
    Hist prog s' (tr ++ e) := by
  intro u
  obtain ⟨h1, h2, h3⟩ := h u
  unfold step at hs
  by_cases hut : u = t
  · subst hut
    cases hpc : (s.thr u).pc <;> simp only [hpc, Pc.before, Pc.after, List.append_nil] at hs h2 h3
    case idle =>
      cases htd : (s.thr u).todo with
      | nil => simp [htd] at hs
      | cons j l =>
        cases j <;> simp only [htd] at hs h1 <;> split at hs <;> simp only [Option.some.injEq, Prod.mk.injEq] at hs <;> obtain ⟨rfl, rfl⟩ := hs <;>
          simp_all [upd, calls, took, rets, observations, Pc.before, Pc.after]
    case got k x p =>
      split at hs <;> simp only [Option.some.injEq, Prod.mk.injEq, reduceCtorEq] at hs
      obtain ⟨rfl, rfl⟩ := hs
      simp_all [upd, Pc.before, Pc.after]
    case sGot k p =>
      split at hs
      · split at hs <;> simp only [Option.some.injEq, Prod.mk.injEq, reduceCtorEq] at hs
        obtain ⟨rfl, rfl⟩ := hs
        simp_all [upd, Pc.before, Pc.after]
      · simp only [Option.some.injEq, Prod.mk.injEq] at hs
        obtain ⟨rfl, rfl⟩ := hs
        simp_all [upd, calls, took, rets, Pc.before, Pc.after]
    all_goals
      simp only [Option.some.injEq, Prod.mk.injEq] at hs
      obtain ⟨rfl, rfl⟩ := hs
      simp_all [upd, calls, took, rets, Pc.before, Pc.after]
  · have hut' : ¬ t = u := fun e => hut e.symm
    have hev : calls u (tr ++ e) = calls u tr ∧ took u (tr ++ e) = took u tr ∧ rets u (tr ++ e) = rets u tr ∧ s'.thr u = s.thr u := by
      cases hpc : (s.thr t).pc <;> simp only [hpc] at hs
      case idle =>
        split at hs
        · cases hs
        · split at hs <;> simp only [Option.some.injEq, Prod.mk.injEq] at hs <;> obtain ⟨rfl, rfl⟩ := hs <;> simp [upd, hut, hut', calls, took, rets]
        · split at hs <;> simp only [Option.some.injEq, Prod.mk.injEq] at hs <;> obtain ⟨rfl, rfl⟩ := hs <;> simp [upd, hut]
      case got k x p =>
        split at hs <;> simp only [Option.some.injEq, Prod.mk.injEq, reduceCtorEq] at hs
        obtain ⟨rfl, rfl⟩ := hs
        simp [upd, hut]
      case sGot k p =>
        split at hs
        · split at hs <;> simp only [Option.some.injEq, Prod.mk.injEq, reduceCtorEq] at hs
          obtain ⟨rfl, rfl⟩ := hs
          simp [upd, hut]
        · simp only [Option.some.injEq, Prod.mk.injEq] at hs
          obtain ⟨rfl, rfl⟩ := hs
          simp [upd, hut, calls, took, rets]
      all_goals
        simp only [Option.some.injEq, Prod.mk.injEq] at hs
        obtain ⟨rfl, rfl⟩ := hs
        simp [upd, hut, hut', calls, took, rets]
    obtain ⟨e1, e2, e3, e4⟩ := hev
    rw [e1, e2, e3, e4]
    exact ⟨h1, h2, h3⟩

end
end Verif.Prom.Conc

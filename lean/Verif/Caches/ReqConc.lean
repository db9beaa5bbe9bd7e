import Verif.Caches.Request
/-!
# /repo/utils/caches/request.go: concurrent calls

Each call is a small program counter. The LRU lookup is atomic (it runs under the LRU mutex), taking the entry mutex, the
expiry check and the end of the fetch are separate steps, so any interleaving between them is an execution.
-/
set_option linter.unusedSectionVars false
set_option autoImplicit false
namespace Verif.Caches

variable {K V E : Type} [DecidableEq K]

/-- Where a `Request(k)` call is. request.go L35-71. -/
inductive PC (K V E : Type) where
  | idle
  /-- L37: about to look up the LRU -/
  | want (k : K)
  /-- L43: has pointer `p`, `hm` from the LRU, waiting for the entry mutex -/
  | got (k : K) (p : Nat) (hm : HitMiss)
  /-- L48: holds the entry mutex, about to check the expiry -/
  | locked (k : K) (p : Nat) (hm : HitMiss)
  /-- L57: holds the entry mutex, inside the fetch function; `fresh` is a ghost flag: the entry held an unexpired result at
  the check -/
  | fetching (k : K) (p : Nat) (hm : HitMiss) (fresh : Bool)
  /-- returned -/
  | done (k : K) (r : Res V E)
  deriving DecidableEq, Repr

/-- Ghost record of a completed fetch. request.go L57-64. -/
structure Done (K V E : Type) where
  key : K
  f : Fetch V E
  now : Nat
  p : Nat
  hm : HitMiss
  fresh : Bool
  deriving DecidableEq, Repr

/-- The cache, the calls in progress and the completed fetches: request.go L10-20, L35-71. -/
structure Sys (K V E : Type) where
  cache : RCache K V E
  pc : Nat → PC K V E
  log : List (Done K V E)

/-- What a call does next, with the clock readings and the answers of the outside: request.go L35-71. -/
inductive Act (K V E : Type) where
  | call (t : Nat) (k : K)
  | lookup (t now : Nat)
  | lock (t : Nat)
  | check (t now : Nat)
  | finish (t : Nat) (f : Fetch V E) (now : Nat)
  | inv (k : K)

/-- Why a step is not possible, or panics: request.go L35-71. -/
inductive SErr where
  | disabled
  | panic
  deriving DecidableEq, Repr

/-- Call `t` is now at `p`. -/
def setPC (pc : Nat → PC K V E) (t : Nat) (p : PC K V E) : Nat → PC K V E := fun x => if x = t then p else pc x

/-- A new cache (request.go L22-29) and no calls. -/
def Sys.init (maxS : Int) : Sys K V E := ⟨RCache.new maxS, fun _ => .idle, []⟩

/-- One atomic step of request.go L35-71 by call `t`. A disabled action is not part of any execution; a Go panic is
reported as such. -/
def Sys.step (zero : V) (s : Sys K V E) : Act K V E → Except SErr (Sys K V E)
  | .call t k =>
    match s.pc t with
    | .idle => .ok { s with pc := setPC s.pc t (.want k) }
    | .done _ _ => .ok { s with pc := setPC s.pc t (.want k) }
    | _ => .error .disabled
  | .lookup t now =>
    match s.pc t with
    | .want k =>
      match s.cache.lru.get (E := E) now k (.ok s.cache.store.length 1) with
      | .error _ => .error .panic
      | .ok (lru, r) =>
        let store := if r.called then
            s.cache.store ++ [{ key := k, val := zero, err := none, expire := 0, owner := none }] else s.cache.store
        .ok { s with cache := ⟨lru, store⟩, pc := setPC s.pc t (.got k r.val r.hm) }
    | _ => .error .disabled
  | .lock t =>
    match s.pc t with
    | .got k p hm =>
      match s.cache.store[p]? with
      | none => .error .panic
      | some e =>
        match e.owner with
        | some _ => .error .disabled
        | none =>
          .ok { s with cache := { s.cache with store := s.cache.store.set p { e with owner := some t } },
                       pc := setPC s.pc t (.locked k p hm) }
    | _ => .error .disabled
  | .check t now =>
    match s.pc t with
    | .locked k p hm =>
      match s.cache.store[p]? with
      | none => .error .panic
      | some e =>
        if hm ≠ .miss ∧ e.expire ≥ now then
          .ok { s with cache := { s.cache with store := s.cache.store.set p { e with owner := none } },
                       pc := setPC s.pc t (.done k { val := e.val, hm := .hit, err := e.err, called := false }) }
        else .ok { s with pc := setPC s.pc t (.fetching k p hm (decide (e.expire ≥ now))) }
    | _ => .error .disabled
  | .finish t f now =>
    match s.pc t with
    | .fetching k p hm fresh =>
      match s.cache.store[p]? with
      | none => .error .panic
      | some e =>
        .ok { cache := { s.cache with store := s.cache.store.set p { (e.complete f now) with owner := none } },
              pc := setPC s.pc t (.done k (fetchRes f)), log := s.log ++ [⟨k, f, now, p, hm, fresh⟩] }
    | _ => .error .disabled
  | .inv k =>
    match s.cache.lru.invalidate k with
    | .error _ => .error .panic
    | .ok lru => .ok { s with cache := { s.cache with lru := lru } }

/-- Steps one after the other; stops at the first error. -/
def Sys.exec (zero : V) (s : Sys K V E) : List (Act K V E) → Except SErr (Sys K V E)
  | [] => .ok s
  | a :: as =>
    match s.step zero a with
    | .error e => .error e
    | .ok s => Sys.exec zero s as

/-- Clock readings are after the zero time (request.go L63). -/
def Act.Valid : Act K V E → Prop
  | .lookup _ now => 0 < now
  | .check _ now => 0 < now
  | _ => True

/-- The first instant after the zero time will do. -/
example (i : Nat) : (Act.lookup i 1 : Act K V E).Valid ∧ (Act.check i 1 : Act K V E).Valid := by simp [Act.Valid]

/-- Pointer held by a call that owns (or is about to own) an entry mutex. -/
def PC.holds : PC K V E → Option Nat
  | .locked _ p _ => some p
  | .fetching _ p _ _ => some p
  | _ => none

/-- Key and pointer of a call that has a pointer. -/
def PC.ref : PC K V E → Option (K × Nat)
  | .got k p _ => some (k, p)
  | .locked k p _ => some (k, p)
  | .fetching k p _ _ => some (k, p)
  | _ => none

/-- The inductive invariant of the machine. -/
structure SInv (s : Sys K V E) : Prop where
  cache : RInv s.cache
  /-- the mutex owner is exactly the call inside the critical section -/
  own : ∀ (p : Nat) (e : REntry K V E), s.cache.store[p]? = some e → ∀ t, (e.owner = some t ↔ (s.pc t).holds = some p)
  /-- pointers held by calls are valid and belong to their key -/
  ref : ∀ (t : Nat) (k : K) (p : Nat), (s.pc t).ref = some (k, p) → ∃ e : REntry K V E, s.cache.store[p]? = some e ∧ e.key = k
  /-- an entry that can be served holds the result of a completed fetch for its key -/
  val : ∀ (p : Nat) (e : REntry K V E), s.cache.store[p]? = some e → e.expire ≠ 0 →
    ∃ d ∈ s.log, d.key = e.key ∧ d.f.val = e.val ∧ d.f.err = e.err ∧ 0 < d.f.ttl ∧ e.expire = d.now + d.f.ttl.toNat
  /-- a call that returned a hit returned the result of a completed fetch for its key -/
  res : ∀ t k r, s.pc t = .done k r → r.hm = .hit →
    ∃ d ∈ s.log, d.key = k ∧ d.f.val = r.val ∧ d.f.err = r.err ∧ 0 < d.f.ttl

theorem sinv_init (maxS : Int) (h0 : 0 ≤ maxS) : SInv (Sys.init maxS : Sys K V E) := by
  refine ⟨rinv_new maxS h0, ?_, ?_, ?_, ?_⟩
  · intro p e h; simp [Sys.init, RCache.new] at h
  · intro t k p h; simp [Sys.init, PC.ref] at h
  · intro p e h; simp [Sys.init, RCache.new] at h
  · intro t k r h; simp [Sys.init] at h

theorem rinv_set {c : RCache K V E} (inv : RInv c) (p : Nat) (e e' : REntry K V E) (he : c.store[p]? = some e) (hk : e'.key = e.key) :
    RInv { c with store := c.store.set p e' } := by
  refine ⟨inv.lru, inv.max, inv.cur, ?_⟩
  intro x hx
  obtain ⟨y, hy, hyk⟩ := inv.ptr x hx
  simp only
  by_cases h : x.val = p
  · refine ⟨e', by rw [h, List.getElem?_set_self (lt_of_get he)], ?_⟩
    rw [h, he] at hy; injection hy with hy; rw [hk, hy]; exact hyk
  · exact ⟨y, by rw [List.getElem?_set_ne (by omega)]; exact hy, hyk⟩

theorem get_set {α : Type} (l : List α) (p q : Nat) (a b : α) (h : l[p]? = some a) :
    (l.set p b)[q]? = if q = p then some b else l[q]? := by
  by_cases hq : q = p
  · rw [if_pos hq, hq, List.getElem?_set_self (lt_of_get h)]
  · rw [if_neg hq, List.getElem?_set_ne (by omega)]

/-- Every step keeps the invariant, and no step panics. -/
theorem step_inv (zero : V) (s : Sys K V E) (inv : SInv s) (a : Act K V E) (hv : a.Valid) :
    (s.step zero a = .error .disabled) ∨ ∃ s', s.step zero a = .ok s' ∧ SInv s' := by
  cases a with
  | call t k =>
    have key : (s.pc t).holds = none → (s.pc t).ref = none →
        SInv { s with pc := setPC s.pc t (.want k) } := by
      intro hh hr
      refine ⟨inv.cache, ?_, ?_, inv.val, ?_⟩
      · intro p e he t'
        simp only [setPC]
        rw [inv.own p e he t']
        by_cases ht : t' = t
        · subst ht; rw [if_pos rfl, hh]; rfl
        · rw [if_neg ht]
      · intro t' k' p hp
        simp only [setPC] at hp
        by_cases ht : t' = t
        · rw [if_pos ht] at hp; cases hp
        · rw [if_neg ht] at hp; exact inv.ref t' k' p hp
      · intro t' k' r hp
        simp only [setPC] at hp
        by_cases ht : t' = t
        · rw [if_pos ht] at hp; cases hp
        · rw [if_neg ht] at hp; exact inv.res t' k' r hp
    simp only [Sys.step]
    cases hpc : s.pc t with
    | idle => right; exact ⟨_, rfl, key (by rw [hpc]; rfl) (by rw [hpc]; rfl)⟩
    | done k' r => right; exact ⟨_, rfl, key (by rw [hpc]; rfl) (by rw [hpc]; rfl)⟩
    | want _ => left; rfl
    | got _ _ _ => left; rfl
    | locked _ _ _ => left; rfl
    | fetching _ _ _ _ => left; rfl
  | lookup t now =>
    simp only [Act.Valid] at hv
    simp only [Sys.step]
    cases hpc : s.pc t with
    | want k =>
      right
      simp only
      rcases lookup_cases s.cache inv.cache now hv k with ⟨e, he, hek, hg⟩ | ⟨hk', lru', hg, inv', hmx, hle, hmem⟩
      · rw [hg]
        simp only [Bool.false_eq_true, if_false]
        refine ⟨_, rfl, ⟨inv.cache, ?_, ?_, inv.val, ?_⟩⟩
        · intro p x hx t'
          simp only [setPC]
          rw [inv.own p x hx t']
          by_cases ht : t' = t
          · subst ht; rw [if_pos rfl, hpc]; simp [PC.holds]
          · rw [if_neg ht]
        · intro t' k' p hp
          simp only [setPC] at hp
          by_cases ht : t' = t
          · rw [if_pos ht] at hp
            simp only [PC.ref, Option.some.injEq, Prod.mk.injEq] at hp
            obtain ⟨x, hx, hxk⟩ := inv.cache.ptr e he
            obtain ⟨rfl, rfl⟩ := hp
            exact ⟨x, hx, by rw [hxk, hek]⟩
          · rw [if_neg ht] at hp; exact inv.ref t' k' p hp
        · intro t' k' r hp
          simp only [setPC] at hp
          by_cases ht : t' = t
          · rw [if_pos ht] at hp; cases hp
          · rw [if_neg ht] at hp; exact inv.res t' k' r hp
      · rw [hg]
        simp only [if_true]
        have happ : ∀ (p : Nat) (x : REntry K V E), (s.cache.store ++ [({ key := k, val := zero, err := none, expire := 0, owner := none } : REntry K V E)])[p]? = some x →
            s.cache.store[p]? = some x ∨ (p = s.cache.store.length ∧ x = { key := k, val := zero, err := none, expire := 0, owner := none }) := by
          intro p x hx
          rcases Nat.lt_trichotomy p s.cache.store.length with h | h | h
          · rw [List.getElem?_append_left h] at hx; exact Or.inl hx
          · rw [h, List.getElem?_concat_length] at hx; injection hx with hx; exact Or.inr ⟨h, hx.symm⟩
          · rw [List.getElem?_eq_none (by simp; omega)] at hx; cases hx
        refine ⟨_, rfl, ⟨⟨inv', by simp only; have := inv.cache.max; omega, hle, ?_⟩, ?_, ?_, ?_, ?_⟩⟩
        · intro e he
          simp only
          rcases hmem e he with h | ⟨hke, hve⟩
          · obtain ⟨x, hx, hxk⟩ := inv.cache.ptr e h
            exact ⟨x, by rw [List.getElem?_append_left (lt_of_get hx)]; exact hx, hxk⟩
          · exact ⟨_, by rw [hve, List.getElem?_concat_length], hke.symm⟩
        · intro p x hx t'
          simp only [setPC]
          rcases happ p x hx with h | ⟨hp, hxx⟩
          · rw [inv.own p x h t']
            by_cases ht : t' = t
            · subst ht; rw [if_pos rfl, hpc]; simp [PC.holds]
            · rw [if_neg ht]
          · subst hxx
            constructor
            · intro hc; cases hc
            · intro hh
              exfalso
              by_cases ht : t' = t
              · rw [if_pos ht] at hh; cases hh
              · rw [if_neg ht] at hh
                have : ∃ k', (s.pc t').ref = some (k', p) := by
                  cases hpc' : s.pc t' <;> rw [hpc'] at hh <;> simp [PC.holds] at hh <;> simp [PC.ref, hh]
                obtain ⟨k', hk''⟩ := this
                obtain ⟨y, hy, _⟩ := inv.ref t' k' p hk''
                have := lt_of_get hy
                omega
        · intro t' k' p hp
          simp only [setPC] at hp
          by_cases ht : t' = t
          · rw [if_pos ht] at hp
            simp only [PC.ref, Option.some.injEq, Prod.mk.injEq] at hp
            obtain ⟨rfl, rfl⟩ := hp
            exact ⟨_, List.getElem?_concat_length, rfl⟩
          · rw [if_neg ht] at hp
            obtain ⟨y, hy, hyk⟩ := inv.ref t' k' p hp
            exact ⟨y, by simp only; rw [List.getElem?_append_left (lt_of_get hy)]; exact hy, hyk⟩
        · intro p x hx hne
          rcases happ p x hx with h | ⟨hp, hxx⟩
          · exact inv.val p x h hne
          · subst hxx; simp at hne
        · intro t' k' r hp
          simp only [setPC] at hp
          by_cases ht : t' = t
          · rw [if_pos ht] at hp; cases hp
          · rw [if_neg ht] at hp; exact inv.res t' k' r hp
    | idle => left; rfl
    | done k' r => left; rfl
    | got _ _ _ => left; rfl
    | locked _ _ _ => left; rfl
    | fetching _ _ _ _ => left; rfl
  | lock t =>
    simp only [Sys.step]
    cases hpc : s.pc t with
    | got k p hm =>
      simp only
      obtain ⟨e, he, hek⟩ := inv.ref t k p (by rw [hpc]; rfl)
      rw [he]
      simp only
      cases ho : e.owner with
      | some o => left; rfl
      | none =>
        right
        simp only
        refine ⟨_, rfl, ⟨rinv_set inv.cache p e _ he rfl, ?_, ?_, ?_, ?_⟩⟩
        · intro q x hx t'
          simp only [get_set _ p q e _ he] at hx
          simp only [setPC]
          by_cases hq : q = p
          · rw [if_pos hq] at hx
            injection hx with hx
            subst hx hq
            have hno : ∀ t', (s.pc t').holds ≠ some q := by
              intro t' hh
              have := (inv.own q e he t').2 hh
              rw [ho] at this; cases this
            by_cases ht : t' = t
            · subst ht; rw [if_pos rfl]; simp [PC.holds]
            · rw [if_neg ht]
              constructor
              · intro h; injection h with h; exact absurd h.symm ht
              · intro h; exact absurd h (hno t')
          · rw [if_neg hq] at hx
            rw [inv.own q x hx t']
            by_cases ht : t' = t
            · subst ht
              rw [if_pos rfl, hpc]
              simp only [PC.holds]
              constructor
              · intro h; cases h
              · intro h; injection h with h; exact absurd h.symm hq
            · rw [if_neg ht]
        · intro t' k' q hp
          simp only [setPC] at hp
          simp only [get_set _ p q e _ he]
          by_cases ht : t' = t
          · rw [if_pos ht] at hp
            simp only [PC.ref, Option.some.injEq, Prod.mk.injEq] at hp
            obtain ⟨rfl, rfl⟩ := hp
            rw [if_pos rfl]
            exact ⟨_, rfl, hek⟩
          · rw [if_neg ht] at hp
            obtain ⟨y, hy, hyk⟩ := inv.ref t' k' q hp
            by_cases hq : q = p
            · rw [if_pos hq]
              rw [hq, he] at hy; injection hy with hy
              exact ⟨_, rfl, by simp only; rw [hy]; exact hyk⟩
            · rw [if_neg hq]; exact ⟨y, hy, hyk⟩
        · intro q x hx hne
          simp only [get_set _ p q e _ he] at hx
          by_cases hq : q = p
          · rw [if_pos hq] at hx
            injection hx with hx
            subst hx
            exact inv.val p e he hne
          · rw [if_neg hq] at hx; exact inv.val q x hx hne
        · intro t' k' r hp
          simp only [setPC] at hp
          by_cases ht : t' = t
          · rw [if_pos ht] at hp; cases hp
          · rw [if_neg ht] at hp; exact inv.res t' k' r hp
    | idle => left; rfl
    | done k' r => left; rfl
    | want _ => left; rfl
    | locked _ _ _ => left; rfl
    | fetching _ _ _ _ => left; rfl
  | check t now =>
    simp only [Act.Valid] at hv
    simp only [Sys.step]
    cases hpc : s.pc t with
    | locked k p hm =>
      right
      simp only
      obtain ⟨e, he, hek⟩ := inv.ref t k p (by rw [hpc]; rfl)
      rw [he]
      simp only
      have hown : e.owner = some t := (inv.own p e he t).2 (by rw [hpc]; rfl)
      have honly : ∀ t', (s.pc t').holds = some p → t' = t := by
        intro t' hh
        have := (inv.own p e he t').2 hh
        rw [hown] at this; injection this with this; exact this.symm
      by_cases hc : hm ≠ .miss ∧ e.expire ≥ now
      · rw [if_pos hc]
        refine ⟨_, rfl, ⟨rinv_set inv.cache p e _ he rfl, ?_, ?_, ?_, ?_⟩⟩
        · intro q x hx t'
          simp only [get_set _ p q e _ he] at hx
          simp only [setPC]
          by_cases hq : q = p
          · rw [if_pos hq] at hx
            injection hx with hx
            subst hx hq
            constructor
            · intro h; cases h
            · intro h
              by_cases ht : t' = t
              · rw [if_pos ht] at h; cases h
              · rw [if_neg ht] at h; exact absurd (honly t' h) ht
          · rw [if_neg hq] at hx
            rw [inv.own q x hx t']
            by_cases ht : t' = t
            · subst ht
              rw [if_pos rfl, hpc]
              simp only [PC.holds]
              constructor
              · intro h; injection h with h; exact absurd h.symm hq
              · intro h; cases h
            · rw [if_neg ht]
        · intro t' k' q hp
          simp only [setPC] at hp
          simp only [get_set _ p q e _ he]
          by_cases ht : t' = t
          · rw [if_pos ht] at hp; cases hp
          · rw [if_neg ht] at hp
            obtain ⟨y, hy, hyk⟩ := inv.ref t' k' q hp
            by_cases hq : q = p
            · rw [if_pos hq]
              rw [hq, he] at hy; injection hy with hy
              exact ⟨_, rfl, by simp only; rw [hy]; exact hyk⟩
            · rw [if_neg hq]; exact ⟨y, hy, hyk⟩
        · intro q x hx hne
          simp only [get_set _ p q e _ he] at hx
          by_cases hq : q = p
          · rw [if_pos hq] at hx
            injection hx with hx
            subst hx
            exact inv.val p e he hne
          · rw [if_neg hq] at hx; exact inv.val q x hx hne
        · intro t' k' r hp hhit
          simp only [setPC] at hp
          by_cases ht : t' = t
          · rw [if_pos ht] at hp
            injection hp with hp1 hp2
            subst hp1 hp2
            obtain ⟨d, hd, h1, h2, h3, h4, h5⟩ := inv.val p e he (by have := hc.2; omega)
            exact ⟨d, hd, by rw [h1, hek], h2, h3, h4⟩
          · rw [if_neg ht] at hp; exact inv.res t' k' r hp hhit
      · rw [if_neg hc]
        refine ⟨_, rfl, ⟨inv.cache, ?_, ?_, inv.val, ?_⟩⟩
        · intro q x hx t'
          simp only [setPC]
          rw [inv.own q x hx t']
          by_cases ht : t' = t
          · subst ht; rw [if_pos rfl, hpc]; rfl
          · rw [if_neg ht]
        · intro t' k' q hp
          simp only [setPC] at hp
          by_cases ht : t' = t
          · rw [if_pos ht] at hp
            simp only [PC.ref, Option.some.injEq, Prod.mk.injEq] at hp
            obtain ⟨rfl, rfl⟩ := hp
            exact ⟨e, he, hek⟩
          · rw [if_neg ht] at hp; exact inv.ref t' k' q hp
        · intro t' k' r hp
          simp only [setPC] at hp
          by_cases ht : t' = t
          · rw [if_pos ht] at hp; cases hp
          · rw [if_neg ht] at hp; exact inv.res t' k' r hp
    | idle => left; rfl
    | done k' r => left; rfl
    | want _ => left; rfl
    | got _ _ _ => left; rfl
    | fetching _ _ _ _ => left; rfl
  | finish t f now =>
    simp only [Sys.step]
    cases hpc : s.pc t with
    | fetching k p hm fresh =>
      right
      simp only
      obtain ⟨e, he, hek⟩ := inv.ref t k p (by rw [hpc]; rfl)
      rw [he]
      simp only
      have hown : e.owner = some t := (inv.own p e he t).2 (by rw [hpc]; rfl)
      have honly : ∀ t', (s.pc t').holds = some p → t' = t := by
        intro t' hh
        have := (inv.own p e he t').2 hh
        rw [hown] at this; injection this with this; exact this.symm
      refine ⟨_, rfl, ⟨rinv_set inv.cache p e _ he (by simp only [complete_key]), ?_, ?_, ?_, ?_⟩⟩
      · intro q x hx t'
        simp only [get_set _ p q e _ he] at hx
        simp only [setPC]
        by_cases hq : q = p
        · rw [if_pos hq] at hx
          injection hx with hx
          subst hx hq
          constructor
          · intro h; cases h
          · intro h
            by_cases ht : t' = t
            · rw [if_pos ht] at h; cases h
            · rw [if_neg ht] at h; exact absurd (honly t' h) ht
        · rw [if_neg hq] at hx
          rw [inv.own q x hx t']
          by_cases ht : t' = t
          · subst ht
            rw [if_pos rfl, hpc]
            simp only [PC.holds]
            constructor
            · intro h; injection h with h; exact absurd h.symm hq
            · intro h; cases h
          · rw [if_neg ht]
      · intro t' k' q hp
        simp only [setPC] at hp
        simp only [get_set _ p q e _ he]
        by_cases ht : t' = t
        · rw [if_pos ht] at hp; cases hp
        · rw [if_neg ht] at hp
          obtain ⟨y, hy, hyk⟩ := inv.ref t' k' q hp
          by_cases hq : q = p
          · rw [if_pos hq]
            rw [hq, he] at hy; injection hy with hy
            exact ⟨_, rfl, by simp only [complete_key]; rw [hy]; exact hyk⟩
          · rw [if_neg hq]; exact ⟨y, hy, hyk⟩
      · intro q x hx hne
        simp only [get_set _ p q e _ he] at hx
        by_cases hq : q = p
        · rw [if_pos hq] at hx
          injection hx with hx
          subst hx
          refine ⟨⟨k, f, now, p, hm, fresh⟩, by simp, ?_⟩
          simp only [complete_key]
          simp only at hne
          unfold REntry.complete at hne ⊢
          split at hne
          · rename_i ht
            rw [if_pos ht]
            exact ⟨hek.symm, rfl, rfl, ht, rfl⟩
          · simp at hne
        · rw [if_neg hq] at hx
          obtain ⟨d, hd, h⟩ := inv.val q x hx hne
          exact ⟨d, by simp [hd], h⟩
      · intro t' k' r hp hhit
        simp only [setPC] at hp
        by_cases ht : t' = t
        · rw [if_pos ht] at hp
          injection hp with hp1 hp2
          subst hp1 hp2
          unfold fetchRes at hhit
          split at hhit <;> cases hhit
        · rw [if_neg ht] at hp
          obtain ⟨d, hd, h⟩ := inv.res t' k' r hp hhit
          exact ⟨d, by simp [hd], h⟩
    | idle => left; rfl
    | done k' r => left; rfl
    | want _ => left; rfl
    | got _ _ _ => left; rfl
    | locked _ _ _ => left; rfl
  | inv k =>
    right
    obtain ⟨s', h, inv', hmx, hst, hmem⟩ := rinvalidate_spec s.cache inv.cache k
    unfold RCache.invalidate at h
    simp only [Sys.step]
    cases hi : s.cache.lru.invalidate k with
    | error p => rw [hi] at h; cases h
    | ok lru =>
      rw [hi] at h
      simp only [bind, Except.bind, pure, Except.pure] at h
      injection h with h
      subst h
      exact ⟨_, rfl, ⟨inv', inv.own, inv.ref, inv.val, inv.res⟩⟩

theorem exec_inv (zero : V) (as : List (Act K V E)) : ∀ (s : Sys K V E), SInv s → (∀ a ∈ as, a.Valid) →
    (s.exec zero as = .error .disabled) ∨ ∃ s', s.exec zero as = .ok s' ∧ SInv s' := by
  induction as with
  | nil => intro s inv _; exact Or.inr ⟨s, rfl, inv⟩
  | cons a as ih =>
    intro s inv hv
    simp only [Sys.exec]
    rcases step_inv zero s inv a (hv a List.mem_cons_self) with h | ⟨s', h, inv'⟩
    · rw [h]; exact Or.inl rfl
    · rw [h]; exact ih s' inv' (fun a ha => hv a (by simp [ha]))

/-- The pointer a call created (its LRU lookup missed) and has not finished with. -/
def PC.created : PC K V E → Option Nat
  | .got _ p .miss => some p
  | .locked _ p .miss => some p
  | .fetching _ p .miss _ => some p
  | _ => none

/-- Bookkeeping of creators: at most one call ever created a given entry. -/
structure CInv (s : Sys K V E) : Prop where
  bound : ∀ t p, (s.pc t).created = some p → p < s.cache.store.length
  lbound : ∀ d ∈ s.log, d.p < s.cache.store.length
  uniq : ∀ t t' p, (s.pc t).created = some p → (s.pc t').created = some p → t = t'
  gone : ∀ t p, (s.pc t).created = some p → ∀ d ∈ s.log, d.hm = .miss → d.p ≠ p
  once : s.log.Pairwise (fun d d' => d.hm = .miss → d'.hm = .miss → d.p ≠ d'.p)
  fresh : ∀ t k p hm, s.pc t = .fetching k p hm true → hm = .miss
  lfresh : ∀ d ∈ s.log, d.fresh = true → d.hm = .miss

theorem cinv_init (maxS : Int) : CInv (Sys.init maxS : Sys K V E) := by
  constructor <;> simp [Sys.init, PC.created]

/-- Changing one program counter without creating anything new keeps the bookkeeping. -/
theorem cinv_pc {s : Sys K V E} (ci : CInv s) (c : RCache K V E) (hlen : s.cache.store.length ≤ c.store.length) (t : Nat) (pc' : PC K V E)
    (hcr : ∀ p, pc'.created = some p → (s.pc t).created = some p)
    (hfr : ∀ k p hm, pc' = .fetching k p hm true → hm = .miss) :
    CInv { s with cache := c, pc := setPC s.pc t pc' } := by
  have hc : ∀ t' p, (setPC s.pc t pc' t').created = some p → (s.pc t').created = some p := by
    intro t' p h
    simp only [setPC] at h
    by_cases ht : t' = t
    · subst ht; rw [if_pos rfl] at h; exact hcr p h
    · rw [if_neg ht] at h; exact h
  refine ⟨?_, ?_, ?_, ?_, ci.once, ?_, ci.lfresh⟩
  · intro t' p h; exact Nat.lt_of_lt_of_le (ci.bound t' p (hc t' p h)) hlen
  · intro d hd; exact Nat.lt_of_lt_of_le (ci.lbound d hd) hlen
  · intro t1 t2 p h1 h2; exact ci.uniq t1 t2 p (hc _ _ h1) (hc _ _ h2)
  · intro t' p h; exact ci.gone t' p (hc _ _ h)
  · intro t' k p hm h
    simp only [setPC] at h
    by_cases ht : t' = t
    · rw [if_pos ht] at h; exact hfr k p hm h
    · rw [if_neg ht] at h; exact ci.fresh t' k p hm h

theorem step_cinv (zero : V) (s s' : Sys K V E) (inv : SInv s) (ci : CInv s) (a : Act K V E) (hv : a.Valid)
    (hstep : s.step zero a = .ok s') : CInv s' := by
  cases a with
  | call t k =>
    have key : CInv { s with pc := setPC s.pc t (.want k) } :=
      cinv_pc ci s.cache (Nat.le_refl _) t (.want k) (by intro p h; cases h) (by intro _ _ _ h; cases h)
    simp only [Sys.step] at hstep
    split at hstep
    · injection hstep with h; rw [← h]; exact key
    · injection hstep with h; rw [← h]; exact key
    · cases hstep
  | lookup t now =>
    simp only [Act.Valid] at hv
    simp only [Sys.step] at hstep
    cases hpc : s.pc t with
    | want k =>
      rw [hpc] at hstep
      simp only at hstep
      rcases lookup_cases s.cache inv.cache now hv k with ⟨e, he, hek, hg⟩ | ⟨hk', lru', hg, inv', hmx, hle, hmem⟩
      · rw [hg] at hstep
        simp only [Bool.false_eq_true, if_false] at hstep
        injection hstep with h
        rw [← h]
        exact cinv_pc ci _ (Nat.le_refl _) t _ (by intro p h; cases h) (by intro _ _ _ h; cases h)
      · rw [hg] at hstep
        simp only [if_true] at hstep
        injection hstep with h
        rw [← h]
        have hc : ∀ t' p, (setPC s.pc t (.got k s.cache.store.length .miss) t').created = some p →
            (t' = t ∧ p = s.cache.store.length) ∨ (t' ≠ t ∧ (s.pc t').created = some p) := by
          intro t' p h
          simp only [setPC] at h
          by_cases ht : t' = t
          · rw [if_pos ht] at h
            simp only [PC.created, Option.some.injEq] at h
            exact Or.inl ⟨ht, h.symm⟩
          · rw [if_neg ht] at h; exact Or.inr ⟨ht, h⟩
        refine ⟨?_, ?_, ?_, ?_, ci.once, ?_, ci.lfresh⟩
        · intro t' p h
          simp only [List.length_append, List.length_singleton]
          rcases hc t' p h with ⟨_, h⟩ | ⟨_, h⟩
          · omega
          · have := ci.bound t' p h; omega
        · intro d hd
          simp only [List.length_append, List.length_singleton]
          have := ci.lbound d hd; omega
        · intro t1 t2 p h1 h2
          rcases hc t1 p h1 with ⟨e1, h1⟩ | ⟨n1, h1⟩ <;> rcases hc t2 p h2 with ⟨e2, h2⟩ | ⟨n2, h2⟩
          · rw [e1, e2]
          · have := ci.bound t2 p h2; omega
          · have := ci.bound t1 p h1; omega
          · exact ci.uniq t1 t2 p h1 h2
        · intro t' p h d hd hm
          rcases hc t' p h with ⟨_, h⟩ | ⟨_, h⟩
          · have := ci.lbound d hd; omega
          · exact ci.gone t' p h d hd hm
        · intro t' k' p hm h
          simp only [setPC] at h
          by_cases ht : t' = t
          · rw [if_pos ht] at h; cases h
          · rw [if_neg ht] at h; exact ci.fresh t' k' p hm h
    | _ => rw [hpc] at hstep; cases hstep
  | lock t =>
    simp only [Sys.step] at hstep
    cases hpc : s.pc t with
    | got k p hm =>
      rw [hpc] at hstep
      simp only at hstep
      split at hstep
      · cases hstep
      · rename_i e he
        split at hstep
        · cases hstep
        · injection hstep with h
          rw [← h]
          refine cinv_pc ci _ (by simp) t _ ?_ (by intro _ _ _ h; cases h)
          intro q hq
          rw [hpc]
          cases hm <;> simp [PC.created] at hq ⊢
          exact hq
    | _ => rw [hpc] at hstep; cases hstep
  | check t now =>
    simp only [Sys.step] at hstep
    cases hpc : s.pc t with
    | locked k p hm =>
      rw [hpc] at hstep
      simp only at hstep
      split at hstep
      · cases hstep
      · rename_i e he
        split at hstep
        · injection hstep with h
          rw [← h]
          exact cinv_pc ci _ (by simp) t _ (by intro p h; cases h) (by intro _ _ _ h; cases h)
        · rename_i hc
          injection hstep with h
          rw [← h]
          refine cinv_pc ci _ (Nat.le_refl _) t _ ?_ ?_
          · intro q hq
            rw [hpc]
            cases hm <;> simp [PC.created] at hq ⊢
            exact hq
          · intro k' p' hm' heq
            injection heq with h1 h2 h3 h4
            have h4' : e.expire ≥ now := of_decide_eq_true h4
            rw [← h3]
            apply Classical.byContradiction
            intro hne
            exact hc ⟨hne, h4'⟩
    | _ => rw [hpc] at hstep; cases hstep
  | finish t f now =>
    simp only [Sys.step] at hstep
    cases hpc : s.pc t with
    | fetching k p hm fresh =>
      rw [hpc] at hstep
      simp only at hstep
      split at hstep
      · cases hstep
      · rename_i e he
        injection hstep with h
        have base : CInv { s with cache := { s.cache with store := s.cache.store.set p { (e.complete f now) with owner := none } }, pc := setPC s.pc t (.done k (fetchRes f)) } :=
          cinv_pc ci _ (by simp) t _ (by intro p h; cases h) (by intro _ _ _ h; cases h)
        rw [← h]
        refine ⟨base.bound, ?_, base.uniq, ?_, ?_, base.fresh, ?_⟩
        · intro d hd
          simp only [List.mem_append, List.mem_singleton] at hd
          rcases hd with hd | rfl
          · exact base.lbound d hd
          · simp only [List.length_set]; exact lt_of_get he
        · intro t' q hq d hd hdm
          simp only [List.mem_append, List.mem_singleton] at hd
          rcases hd with hd | rfl
          · exact base.gone t' q hq d hd hdm
          · simp only at hdm ⊢
            intro heq
            subst heq hdm
            simp only [setPC] at hq
            by_cases ht : t' = t
            · rw [if_pos ht] at hq; cases hq
            · rw [if_neg ht] at hq
              exact ht (ci.uniq t' t p hq (by rw [hpc]; rfl))
        · rw [List.pairwise_append]
          refine ⟨ci.once, by simp, ?_⟩
          intro d hd d' hd' h1 h2
          simp only [List.mem_singleton] at hd'
          subst hd'
          simp only at h2 ⊢
          subst h2
          exact ci.gone t p (by rw [hpc]; rfl) d hd h1
        · intro d hd hf
          simp only [List.mem_append, List.mem_singleton] at hd
          rcases hd with hd | rfl
          · exact ci.lfresh d hd hf
          · simp only at hf ⊢
            subst hf
            exact ci.fresh t k p hm hpc
    | _ => rw [hpc] at hstep; cases hstep
  | inv k =>
    simp only [Sys.step] at hstep
    split at hstep
    · cases hstep
    · injection hstep with h
      rw [← h]
      exact ⟨ci.bound, ci.lbound, ci.uniq, ci.gone, ci.once, ci.fresh, ci.lfresh⟩

theorem exec_cinv (zero : V) (as : List (Act K V E)) : ∀ (s s' : Sys K V E), SInv s → CInv s → (∀ a ∈ as, a.Valid) →
    s.exec zero as = .ok s' → CInv s' := by
  induction as with
  | nil => intro s s' _ ci _ h; simp only [Sys.exec] at h; injection h with h; rw [← h]; exact ci
  | cons a as ih =>
    intro s s' inv ci hv h
    simp only [Sys.exec] at h
    rcases step_inv zero s inv a (hv a List.mem_cons_self) with h1 | ⟨s1, h1, inv1⟩
    · rw [h1] at h; cases h
    · rw [h1] at h
      exact ih s1 s' inv1 (step_cinv zero s s1 inv ci a (hv a List.mem_cons_self) h1) (fun a ha => hv a (by simp [ha])) h

end Verif.Caches

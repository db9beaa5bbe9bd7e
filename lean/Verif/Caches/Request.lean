import Verif.Caches.FifoLemmas
/-!
# Model of /repo/utils/caches/request.go

The underlying cache is the LRU model with size 1 per entry. Its values are pointers to `entry`, modelled as positions in a
growing store. First the sequential behaviour of one `Request`, then the interleaving machine.
-/
set_option linter.unusedSectionVars false
namespace Verif.Caches

variable {K V E : Type} [DecidableEq K]

/-- request.go L15-20 `entry`. `expire = 0` is the zero time. `key` is a ghost field: the key the entry was allocated for.
`owner` is the call holding the entry mutex `m`, if any. -/
structure REntry (K V E : Type) where
  key : K
  val : V
  err : Option E
  expire : Nat
  owner : Option Nat
  deriving DecidableEq, Repr

/-- What the user's fetch function answers: value, ttl and error. request.go L57. -/
structure Fetch (V E : Type) where
  val : V
  ttl : Int
  err : Option E
  deriving DecidableEq, Repr

/-- request.go L10-13 `RequestCache`: the LRU of pointers and the memory they point to. -/
structure RCache (K V E : Type) where
  lru : LRU K Nat
  store : List (REntry K V E)

/-- request.go L22-29 `NewRequestLRU`. -/
def RCache.new (maxS : Int) : RCache K V E := ⟨LRU.new maxS, []⟩

/-- request.go L58-64: what a completed fetch writes to the entry. -/
def REntry.complete (e : REntry K V E) (f : Fetch V E) (now : Nat) : REntry K V E :=
  if f.ttl > 0 then { e with err := f.err, val := f.val, expire := now + f.ttl.toNat }
  else { e with expire := 0 }

/-- request.go L66-70: what the fetching call returns. -/
def fetchRes (f : Fetch V E) : Res V E :=
  match f.err with
  | some e => { val := f.val, hm := .err, err := some e, called := true }
  | none => { val := f.val, hm := .miss, err := none, called := true }

/-- request.go L35-71 `Request`, run without interference. `now0` is the LRU clock, `now1` the clock at the expiry check L48,
`now2` the clock at L61. `called` in the result tells whether the fetch function was called. `zero` is Go's zero value. -/
def RCache.request (zero : V) (s : RCache K V E) (now0 now1 now2 : Nat) (k : K) (f : Fetch V E) :
    Go (RCache K V E × Res V E) := do
  let (lru, r) ← s.lru.get (E := E) now0 k (.ok s.store.length 1)
  let store := if r.called then s.store ++ [{ key := k, val := zero, err := none, expire := 0, owner := none }] else s.store
  let e ← Go.idx store r.val
  if r.hm ≠ .miss ∧ e.expire ≥ now1 then
    pure (⟨lru, store⟩, { val := e.val, hm := .hit, err := e.err, called := false })
  else do
    let store ← Go.set store r.val (e.complete f now2)
    pure (⟨lru, store⟩, fetchRes f)

/-- request.go L31-33 `Invalidate`. -/
def RCache.invalidate (s : RCache K V E) (k : K) : Go (RCache K V E) := do
  let lru ← s.lru.invalidate k
  pure { s with lru := lru }

/-- A sequential call. request.go L31-71. -/
inductive ROp (K V E : Type) where
  | request (now0 now1 now2 : Nat) (k : K) (f : Fetch V E)
  | inv (k : K)

/-- Calls one after the other (request.go L31-71), with their results. -/
def RCache.run (zero : V) (s : RCache K V E) : List (ROp K V E) → Go (RCache K V E × List (Option (Res V E)))
  | [] => .ok (s, [])
  | .request n0 n1 n2 k f :: ops => do
    let (s, r) ← s.request zero n0 n1 n2 k f
    let (s, rs) ← RCache.run zero s ops
    pure (s, some r :: rs)
  | .inv k :: ops => do
    let s ← s.invalidate k
    let (s, rs) ← RCache.run zero s ops
    pure (s, none :: rs)

/-- Clock readings are after the zero time. -/
def ROp.Valid : ROp K V E → Prop
  | .request n0 n1 _ _ _ => 0 < n0 ∧ 0 < n1
  | .inv _ => True

/-- Event that leaves the stored result of `k` alone. -/
def RQuiet (k : K) : ROp K V E × Option (Res V E) → Prop
  | (.inv k', _) => k' ≠ k
  | (.request _ _ _ k' _, some r) => k' = k → r.called = false
  | (.request _ _ _ _ _, none) => True

/-- In history `h` the latest fetch for `k` answered value `v`, error `e` and positive ttl and so expires at `exp`, and `k` was
not invalidated since. -/
def FetchedLast (k : K) (v : V) (e : Option E) (exp : Nat) (h : List (ROp K V E × Option (Res V E))) : Prop :=
  ∃ pre post n0 n1 n2 ttl r, h = pre ++ (ROp.request n0 n1 n2 k ⟨v, ttl, e⟩, some r) :: post ∧ r.called = true ∧ 0 < ttl ∧
    exp = n2 + ttl.toNat ∧ ∀ x ∈ post, RQuiet k x

/-! ## invariant -/

structure RInv (s : RCache K V E) : Prop where
  lru : Inv s.lru
  max : 0 ≤ s.lru.maxSize
  cur : s.lru.curSize ≤ s.lru.maxSize
  ptr : ∀ e ∈ s.lru.heap.list, ∃ x, s.store[e.val]? = some x ∧ x.key = e.key

theorem rinv_new (maxS : Int) (h0 : 0 ≤ maxS) : RInv (RCache.new maxS : RCache K V E) :=
  ⟨inv_new maxS, h0, h0, by simp [RCache.new, LRU.new]⟩

/-- The LRU lookup made by `Request`: a hit on a cached pointer, or a fresh pointer. -/
theorem lookup_cases (s : RCache K V E) (inv : RInv s) (now : Nat) (hn : 0 < now) (k : K) :
    (∃ e ∈ s.lru.heap.list, e.key = k ∧
      s.lru.get (E := E) now k (.ok s.store.length 1) = .ok (s.lru, { val := e.val, hm := .hit, err := none, called := false })) ∨
    ((∀ e ∈ s.lru.heap.list, e.key ≠ k) ∧ ∃ lru',
      s.lru.get (E := E) now k (.ok s.store.length 1) = .ok (lru', { val := s.store.length, hm := .miss, err := none, called := true }) ∧
      Inv lru' ∧ lru'.maxSize = s.lru.maxSize ∧ lru'.curSize ≤ lru'.maxSize ∧
      (∀ e ∈ lru'.heap.list, e ∈ s.lru.heap.list ∨ (e.key = k ∧ e.val = s.store.length))) := by
  by_cases hk : ∃ e ∈ s.lru.heap.list, e.key = k
  · obtain ⟨e, he, hek⟩ := hk
    exact Or.inl ⟨e, he, hek, get_hit s.lru inv.lru now k _ e he hek⟩
  · have hk' : ∀ e ∈ s.lru.heap.list, e.key ≠ k := fun e he hek => hk ⟨e, he, hek⟩
    obtain ⟨c', ev, hg, inv', hmx, hle, hperm, _⟩ := get_miss (E := E) s.lru inv.lru inv.max now hn k s.store.length 1 (by omega) hk'
    refine Or.inr ⟨hk', c', hg, inv', hmx, by omega, ?_⟩
    intro e he
    have := hperm.mem_iff.2 (show e ∈ ev ++ c'.heap.list by simp [he])
    simp only [List.mem_cons] at this
    rcases this with rfl | h
    · exact Or.inr ⟨rfl, rfl⟩
    · exact Or.inl h

theorem complete_key (e : REntry K V E) (f : Fetch V E) (now : Nat) : (e.complete f now).key = e.key := by
  unfold REntry.complete; split <;> rfl

/-- Everything one sequential `Request` does. -/
theorem request_spec (zero : V) (s : RCache K V E) (inv : RInv s) (n0 n1 n2 : Nat) (h0 : 0 < n0) (k : K) (f : Fetch V E) :
    ∃ s' r, s.request zero n0 n1 n2 k f = .ok (s', r) ∧ RInv s' ∧ s'.lru.maxSize = s.lru.maxSize ∧
      -- served from the store
      ((∃ e ∈ s.lru.heap.list, e.key = k ∧ ∃ x, s.store[e.val]? = some x ∧ x.expire ≥ n1 ∧ s' = s ∧
          r = { val := x.val, hm := .hit, err := x.err, called := false })
      -- expired: fetched into the same entry
      ∨ (∃ e ∈ s.lru.heap.list, e.key = k ∧ ∃ x, s.store[e.val]? = some x ∧ x.expire < n1 ∧
          s' = ⟨s.lru, s.store.set e.val (x.complete f n2)⟩ ∧ r = fetchRes f)
      -- new: fetched into a fresh entry
      ∨ ((∀ e ∈ s.lru.heap.list, e.key ≠ k) ∧ r = fetchRes f ∧
          s'.store = s.store ++ [({ key := k, val := zero, err := none, expire := 0, owner := none } : REntry K V E).complete f n2] ∧
          (∀ e ∈ s'.lru.heap.list, e ∈ s.lru.heap.list ∨ (e.key = k ∧ e.val = s.store.length)))) := by
  rcases lookup_cases s inv n0 h0 k with ⟨e, he, hek, hg⟩ | ⟨hk', lru', hg, inv', hmx, hle, hmem⟩
  · obtain ⟨x, hx, hxk⟩ := inv.ptr e he
    have hlt := lt_of_get hx
    have hxe : s.store[e.val] = x := by rw [List.getElem?_eq_getElem hlt] at hx; injection hx
    unfold RCache.request
    rw [hg]
    simp only [bind, Except.bind, Bool.false_eq_true, if_false]
    rw [Go.idx_nat _ _ hlt, hxe]
    simp only
    by_cases hexp : x.expire ≥ n1
    · rw [if_pos ⟨by simp, hexp⟩]
      exact ⟨s, _, rfl, inv, rfl, Or.inl ⟨e, he, hek, x, hx, hexp, rfl, rfl⟩⟩
    · rw [if_neg (by simp; omega), Go.set_nat _ _ _ hlt]
      simp only
      refine ⟨⟨s.lru, s.store.set e.val (x.complete f n2)⟩, fetchRes f, rfl, ⟨inv.lru, inv.max, inv.cur, ?_⟩, rfl,
        Or.inr (Or.inl ⟨e, he, hek, x, hx, by omega, rfl, rfl⟩)⟩
      intro e' he'
      obtain ⟨x', hx', hxk'⟩ := inv.ptr e' he'
      simp only
      by_cases hp : e'.val = e.val
      · refine ⟨x.complete f n2, by rw [hp, List.getElem?_set_self hlt], ?_⟩
        rw [complete_key]
        rw [hp, hx] at hx'
        injection hx' with hx'; rw [hx']; exact hxk'
      · exact ⟨x', by rw [List.getElem?_set_ne (by omega)]; exact hx', hxk'⟩
  · unfold RCache.request
    rw [hg]
    simp only [bind, Except.bind, if_true]
    have hlt : s.store.length < (s.store ++ [({ key := k, val := zero, err := none, expire := 0, owner := none } : REntry K V E)]).length := by simp
    rw [Go.idx_nat _ _ hlt]
    simp only
    rw [if_neg (by simp), Go.set_nat _ _ _ hlt]
    simp only [List.getElem_concat_length]
    have hset : (s.store ++ [({ key := k, val := zero, err := none, expire := 0, owner := none } : REntry K V E)]).set s.store.length
        (({ key := k, val := zero, err := none, expire := 0, owner := none } : REntry K V E).complete f n2)
        = s.store ++ [({ key := k, val := zero, err := none, expire := 0, owner := none } : REntry K V E).complete f n2] := by
      rw [List.set_append_right _ _ (Nat.le_refl _)]; simp
    rw [hset]
    refine ⟨⟨lru', _⟩, fetchRes f, rfl, ⟨inv', by simp only; have := inv.max; omega, hle, ?_⟩, hmx, Or.inr (Or.inr ⟨hk', rfl, rfl, hmem⟩)⟩
    intro e he
    simp only
    rcases hmem e he with h | ⟨hke, hv⟩
    · obtain ⟨x, hx, hxk⟩ := inv.ptr e h
      exact ⟨x, by rw [List.getElem?_append_left (lt_of_get hx)]; exact hx, hxk⟩
    · exact ⟨_, by rw [hv, List.getElem?_concat_length], by rw [complete_key]; exact hke.symm⟩

theorem rinvalidate_spec (s : RCache K V E) (inv : RInv s) (k : K) :
    ∃ s', s.invalidate k = .ok s' ∧ RInv s' ∧ s'.lru.maxSize = s.lru.maxSize ∧ s'.store = s.store ∧
      (∀ e, e ∈ s'.lru.heap.list ↔ e ∈ s.lru.heap.list ∧ e.key ≠ k) := by
  obtain ⟨c', h, inv', hmx, hp⟩ := invalidate_spec s.lru inv.lru k
  obtain ⟨c'', h2, _, _, hb2⟩ := invalidate_inv s.lru inv.lru inv.cur k
  rw [h] at h2; injection h2 with h2; subst h2
  have hmem : ∀ e, e ∈ c'.heap.list ↔ e ∈ s.lru.heap.list ∧ e.key ≠ k := by
    intro e; rw [hp.mem_iff]; simp
  refine ⟨⟨c', s.store⟩, ?_, ⟨inv', by simp only; have := inv.max; omega, hb2, ?_⟩, hmx, rfl, hmem⟩
  · unfold RCache.invalidate; rw [h]; rfl
  · intro e he
    exact inv.ptr e ((hmem e).1 he).1

/-- Entries that could be served hold the result of the latest fetch for their key. -/
def RHist (s : RCache K V E) (h : List (ROp K V E × Option (Res V E))) : Prop :=
  ∀ e ∈ s.lru.heap.list, ∀ x, s.store[e.val]? = some x → x.expire ≠ 0 → FetchedLast e.key x.val x.err x.expire h

theorem fetched_ext {k : K} {v : V} {e : Option E} {exp : Nat} {h : List (ROp K V E × Option (Res V E))}
    {x : ROp K V E × Option (Res V E)} (hf : FetchedLast k v e exp h) (hq : RQuiet k x) : FetchedLast k v e exp (h ++ [x]) := by
  obtain ⟨pre, post, n0, n1, n2, ttl, r, rfl, h1, h2, h3, h4⟩ := hf
  refine ⟨pre, post ++ [x], n0, n1, n2, ttl, r, by simp, h1, h2, h3, ?_⟩
  intro y hy
  simp only [List.mem_append, List.mem_singleton] at hy
  rcases hy with hy | rfl
  · exact h4 y hy
  · exact hq

theorem fetchRes_called (f : Fetch V E) : (fetchRes f).called = true := by
  unfold fetchRes; split <;> rfl

theorem complete_hist (x : REntry K V E) (f : Fetch V E) (n0 n1 n2 : Nat) (k : K) (h : List (ROp K V E × Option (Res V E)))
    (hne : (x.complete f n2).expire ≠ 0) :
    FetchedLast k (x.complete f n2).val (x.complete f n2).err (x.complete f n2).expire
      (h ++ [(ROp.request n0 n1 n2 k f, some (fetchRes f))]) := by
  unfold REntry.complete at hne ⊢
  split at hne
  · rename_i ht
    rw [if_pos ht]
    exact ⟨h, [], n0, n1, n2, f.ttl, fetchRes f, rfl, fetchRes_called f, ht, rfl, by simp⟩
  · simp at hne

theorem rrun_spec (zero : V) (ops : List (ROp K V E)) : ∀ (s : RCache K V E) (h : List (ROp K V E × Option (Res V E))), RInv s →
    (∀ op ∈ ops, op.Valid) → RHist s h →
    ∃ s' rs, s.run zero ops = .ok (s', rs) ∧ RInv s' ∧ RHist s' (h ++ ops.zip rs) := by
  induction ops with
  | nil => intro s h inv _ hh; exact ⟨s, [], rfl, inv, by simpa using hh⟩
  | cons op ops ih =>
    intro s h inv hv hh
    cases op with
    | request n0 n1 n2 k f =>
      have hvk := hv _ List.mem_cons_self
      simp only [ROp.Valid] at hvk
      obtain ⟨s1, r, hr, inv1, hmx, hcase⟩ := request_spec zero s inv n0 n1 n2 hvk.1 k f
      have hh1 : RHist s1 (h ++ [(ROp.request n0 n1 n2 k f, some r)]) := by
        rcases hcase with ⟨e, he, hek, x, hx, hexp, rfl, rfl⟩ | ⟨e, he, hek, x, hx, hexp, rfl, rfl⟩ | ⟨hk', rfl, hst, hmem⟩
        · intro e' he' x' hx' hne
          exact fetched_ext (hh e' he' x' hx' hne) (fun _ => rfl)
        · intro e' he' x' hx' hne
          simp only at hx' he'
          by_cases hp : e'.val = e.val
          · rw [hp, List.getElem?_set_self (lt_of_get hx)] at hx'
            injection hx' with hx'
            subst hx'
            obtain ⟨y, hy, hyk⟩ := inv.ptr e' he'
            obtain ⟨y2, hy2, hyk2⟩ := inv.ptr e he
            rw [hp, hx] at hy; injection hy with hy
            rw [hx] at hy2; injection hy2 with hy2
            have : e'.key = k := by rw [← hyk, ← hy, hy2, hyk2, hek]
            rw [this]
            exact complete_hist x f n0 n1 n2 k h hne
          · rw [List.getElem?_set_ne (by omega)] at hx'
            have hne' : k ≠ e'.key := by
              intro heq
              have : e = e' := by
                have hn := keys_nodup s.lru.heap inv.lru.wf.index
                obtain ⟨i, hi⟩ := List.mem_iff_getElem?.1 he
                obtain ⟨j, hj⟩ := List.mem_iff_getElem?.1 he'
                have := index_inj inv.lru.wf.index hi hj (by rw [hek, heq])
                subst this; rw [hi] at hj; injection hj
              rw [this] at hp; exact hp rfl
            exact fetched_ext (hh e' he' x' hx' hne) (fun heq => absurd heq hne')
        · intro e' he' x' hx' hne
          rw [hst] at hx'
          rcases hmem e' he' with h' | ⟨hke, hve⟩
          · obtain ⟨y, hy, hyk⟩ := inv.ptr e' h'
            rw [List.getElem?_append_left (lt_of_get hy)] at hx'
            exact fetched_ext (hh e' h' x' hx' hne) (fun heq => absurd heq.symm (hk' e' h'))
          · rw [hve, List.getElem?_concat_length] at hx'
            injection hx' with hx'
            subst hx'
            rw [hke]
            exact complete_hist _ f n0 n1 n2 k h hne
      obtain ⟨s2, rs, hr2, inv2, hh2⟩ := ih s1 _ inv1 (fun op h => hv op (by simp [h])) hh1
      refine ⟨s2, some r :: rs, ?_, inv2, by simpa using hh2⟩
      simp only [RCache.run]
      rw [hr]
      simp only [bind, Except.bind]
      rw [hr2]; rfl
    | inv k =>
      obtain ⟨s1, hr, inv1, hmx, hst, hmem⟩ := rinvalidate_spec s inv k
      have hh1 : RHist s1 (h ++ [((ROp.inv k : ROp K V E), none)]) := by
        intro e he x hx hne
        rw [hst] at hx
        have := (hmem e).1 he
        exact fetched_ext (hh e this.1 x hx hne) (fun heq => this.2 heq.symm)
      obtain ⟨s2, rs, hr2, inv2, hh2⟩ := ih s1 _ inv1 (fun op h => hv op (by simp [h])) hh1
      refine ⟨s2, none :: rs, ?_, inv2, by simpa using hh2⟩
      simp only [RCache.run]
      rw [hr]
      simp only [bind, Except.bind]
      rw [hr2]; rfl

end Verif.Caches

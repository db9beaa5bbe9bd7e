import Verif.Caches.Conc
import Verif.Caches.ReqProps
/-!
# Fetches that panic (C190): utils/caches/lru.go, mem.go, request.go

The miss function of a cache is the user's. If it panics, the deferred `Unlock` is run and the panic goes on to the caller, who may recover: `net/http` does. What is left of the cache is used on.
-/
set_option autoImplicit false
set_option linter.unusedSectionVars false
namespace Verif.Caches.Panics
open Verif.Sync.Locked Verif.Caches.Conc

variable {K V E : Type} [DecidableEq K]

/-! ### LRU -/

/-- A call of an `LRU`; `boom` is a `Get` whose miss function panics if it is called. lru.go L45-98. -/
inductive PCall (K V E : Type) where
  | op (o : Op K V E)
  | boom (k : K)

/-- lru.go L61-98 `Get`, where L75 panics. -/
def boom (k : K) : M (LRU K V) (Res V E) := do
  let at? ← look fun c => .ok (c.heap.index k)
  match at? with
  | some i =>
    let e ← entry i
    fix i
    pure { val := e.val, hm := .hit, err := none, called := false }
  | none => throw .explicit

/-- The methods as sequences of accesses. lru.go L45-98. -/
def pcode : PCall K V E → M (LRU K V) (Option (Res V E))
  | .op (.get now k o) => do let r ← get now k o; pure (some r)
  | .op (.inv k) => do invalidate k; pure none
  | .boom k => do let r ← boom k; pure (some r)

/-- The cache as an object used by goroutines. All of these begin with `Lock` and a deferred `Unlock`. lru.go L46-47, L62-63. -/
def pshared : Obj (LRU K V) (PCall K V E) (Go (Option (Res V E))) := ⟨fun c => ExceptT.run (pcode c), fun _ => true⟩

/-- The calls without those whose miss function panics. -/
def kept (l : List (PCall K V E)) : List (Op K V E) := l.filterMap fun c => match c with
  | .op o => some o
  | .boom _ => none

/-- What those answered. -/
def keptAns (l : List (PCall K V E × Go (Option (Res V E)))) : List (Go (Option (Res V E))) := l.filterMap fun x => match x.1 with
  | .op _ => some x.2
  | .boom _ => none

/-- What a `Get` whose miss function panics does, on a cache `c`: it hits, or it panics. -/
def Booms (c : LRU K V) (k : K) (a : Go (Option (Res V E))) : Prop :=
  (∃ e ∈ c.heap.list, e.key = k ∧ a = .ok (some { val := e.val, hm := .hit, err := none, called := false })) ∨ (k ∉ c.keys ∧ a = .error .explicit)

theorem op_step (c : LRU K V) (inv : Inv c) (h0 : 0 ≤ c.maxSize) (hb : c.curSize ≤ c.maxSize) (o : Op K V E) (hv : o.Valid) :
    ∃ c' r, c.run [o] = .ok (c', [r]) ∧ exec (pcode (.op o)) c = (c', .ok r) ∧ Inv c' ∧ c'.maxSize = c.maxSize ∧ c'.curSize ≤ c'.maxSize := by
  cases o with
  | get now k o =>
    obtain ⟨c', r, h1, h2, h3, h4⟩ := get_inv c inv h0 hb now k o hv
    refine ⟨c', some r, by simp only [LRU.run, h1]; rfl, ?_, h2, h3, h4⟩
    simp only [pcode]
    rw [exec_bind, (sim_get now k o c).1 c' r h1]
    rfl
  | inv k =>
    obtain ⟨c', h1, h2, h3, h4⟩ := invalidate_inv c inv hb k
    refine ⟨c', none, by simp only [LRU.run, h1]; rfl, ?_, h2, h3, h4⟩
    simp only [pcode]
    rw [exec_bind, (sim_invalidate k c).1 c' () (by simp only [h1]; rfl)]
    rfl

theorem boom_step (c : LRU K V) (inv : Inv c) (k : K) : ∃ a, exec (pcode (.boom k : PCall K V E)) c = (c, a) ∧ Booms c k a := by
  by_cases hk : ∃ e ∈ c.heap.list, e.key = k
  · obtain ⟨e, he, hek⟩ := hk
    refine ⟨_, ?_, Or.inl ⟨e, he, hek, rfl⟩⟩
    have hg := (sim_get (E := E) 0 k (.ok e.val 0) c).1 c _ (get_hit c inv 0 k _ e he hek)
    obtain ⟨i, hi⟩ := List.mem_iff_getElem?.1 he
    have hix := (inv.wf.index k i).2 ⟨e, hi, hek⟩
    have hb : exec (boom k : M (LRU K V) (Res V E)) c = exec (get 0 k (.ok e.val 0)) c := by
      unfold boom Conc.get
      rw [exec_bind, exec_bind]
      have : exec (look fun c : LRU K V => .ok (c.heap.index k)) c = (c, .ok (some i)) := by rw [← hix]; rfl
      rw [this]
    simp only [pcode]
    rw [exec_bind, hb, hg]
    rfl
  · have hkeys : k ∉ c.keys := fun h => by
      obtain ⟨e, he, hek⟩ := List.mem_map.1 h
      exact hk ⟨e, he, hek⟩
    refine ⟨_, ?_, Or.inr ⟨hkeys, rfl⟩⟩
    have hix : c.heap.index k = none := by
      cases h : c.heap.index k with
      | none => rfl
      | some i =>
        obtain ⟨e, he, hek⟩ := (inv.wf.index k i).1 h
        exact absurd ⟨e, List.mem_of_getElem? he, hek⟩ hk
    simp only [pcode]
    rw [exec_bind]
    unfold boom
    rw [exec_bind]
    have : exec (look fun c : LRU K V => .ok (c.heap.index k)) c = (c, .ok none) := by rw [← hix]; rfl
    rw [this]
    rfl

theorem run_cons (c c' : LRU K V) (o : Op K V E) (r : Option (Res V E)) (l : List (Op K V E)) (h : c.run [o] = .ok (c', [r])) :
    c.run (o :: l) = (c'.run l >>= fun x => .ok (x.1, r :: x.2)) := by
  cases o with
  | get now k o =>
    simp only [LRU.run, bind, Except.bind, pure, Except.pure] at h ⊢
    cases hg : c.get now k o with
    | error p => rw [hg] at h; cases h
    | ok x =>
      rw [hg] at h
      simp only at h ⊢
      injection h with h; injection h with h1 h2; injection h2 with h2
      subst h1; subst h2
      cases x.1.run l <;> rfl
  | inv k =>
    simp only [LRU.run, bind, Except.bind, pure, Except.pure] at h ⊢
    cases hg : c.invalidate k with
    | error p => rw [hg] at h; cases h
    | ok x =>
      rw [hg] at h
      simp only at h ⊢
      injection h with h; injection h with h1 h2; injection h2 with h2
      subst h1; subst h2
      cases x.run l <;> rfl

theorem seq_kept (l : List (PCall K V E)) : ∀ (c : LRU K V), Inv c → 0 ≤ c.maxSize → c.curSize ≤ c.maxSize → (∀ o ∈ kept l, o.Valid) →
    ∃ c' rs, c.run (kept l) = .ok (c', rs) ∧ (seq pshared c l).1 = c' ∧ keptAns (l.zip (seq pshared c l).2) = rs.map .ok ∧ Inv c' := by
  induction l with
  | nil => intro c inv _ _ _; exact ⟨c, [], rfl, rfl, rfl, inv⟩
  | cons x l ih =>
    intro c inv h0 hb hv
    cases x with
    | op o =>
      obtain ⟨c1, r, h1, h2, h3, h4, h5⟩ := op_step c inv h0 hb o (hv o (by simp [kept]))
      obtain ⟨c', rs, g1, g2, g3, g4⟩ := ih c1 h3 (by omega) h5 (fun o ho => hv o (by simpa [kept] using Or.inr (by simpa [kept] using ho)))
      have he : Body.run (pshared.body (.op o)) c = (c1, .ok r) := h2
      refine ⟨c', r :: rs, ?_, ?_, ?_, g4⟩
      · show c.run (o :: kept l) = _
        rw [run_cons c c1 o r _ h1, g1]; rfl
      · simp only [seq, he]; exact g2
      · simp only [seq, he, List.zip_cons_cons]
        show .ok r :: keptAns (l.zip (seq pshared c1 l).2) = _
        rw [g3]; rfl
    | boom k =>
      obtain ⟨a, h1, -⟩ := boom_step (E := E) c inv k
      obtain ⟨c', rs, g1, g2, g3, g4⟩ := ih c inv h0 hb (fun o ho => hv o (by simpa [kept] using ho))
      have he : Body.run (pshared.body (.boom k)) c = (c, a) := h1
      refine ⟨c', rs, g1, ?_, ?_, g4⟩
      · simp only [seq, he]; exact g2
      · simp only [seq, he, List.zip_cons_cons]
        exact g3

theorem seq_at {σ Op ρ : Type} (O : Obj σ Op ρ) (s : σ) (l l' : List Op) (op : Op) (a : ρ) (rs rs' : List ρ) (h : (seq O s (l ++ op :: l')).2 = rs ++ a :: rs') (hl : rs.length = l.length) :
    a = ((O.body op).run (seq O s l).1).2 := by
  induction l generalizing s rs with
  | nil =>
    cases rs with
    | nil => simp only [List.nil_append, seq] at h; injection h with h; exact h.symm
    | cons _ _ => simp at hl
  | cons o l ih =>
    cases rs with
    | nil => simp at hl
    | cons r rs =>
      simp only [List.cons_append, seq] at h ⊢
      injection h with _ h
      exact ih _ rs h (by simpa using hl)

/-- C190: however goroutines use an `LRU`, and whichever of the miss functions panic: when the mutex is free, and it is once all have returned or panicked, the cache is what it would be if the calls with a panicking
miss function had not been made, the others answered as if they had not, and those hit or panicked themselves. -/
theorem C190_lru_partial (maxS : Int) (h0 : 0 ≤ maxS) (tr : List (Ev (PCall K V E) (Go (Option (Res V E))))) (s : St (LRU K V) (PCall K V E) (Go (Option (Res V E))))
    (h : Exec pshared (LRU.new maxS) tr s) (hv : ∀ o ∈ kept ((finished pshared tr).map (·.1)), o.Valid) :
    (∃ c rs, (LRU.new maxS).run (kept ((finished pshared tr).map (·.1))) = .ok (c, rs) ∧ (s.lock = none → s.sh = c) ∧ keptAns (finished pshared tr) = rs.map .ok) ∧
    (∀ pre k a post, finished pshared tr = pre ++ (.boom k, a) :: post → ∃ c rs, (LRU.new maxS).run (kept (pre.map (·.1))) = .ok (c, rs) ∧ Booms c k a) ∧
    (s.lock = none ∨ ∃ t op b, s.lock = some t ∧ s.th t = .inside op b) := by
  obtain ⟨a1, a2⟩ := one_by_one pshared (fun _ h => (nomatch h)) _ tr s h
  refine ⟨?_, ?_, ?_⟩
  · obtain ⟨c, rs, g1, g2, g3, -⟩ := seq_kept _ (LRU.new maxS) (inv_new maxS) h0 h0 hv
    refine ⟨c, rs, g1, fun hl => by rw [a2 hl, g2], ?_⟩
    rw [← g3, a1]
    congr 1
    induction finished pshared tr with
    | nil => rfl
    | cons x l ih => simp only [List.map_cons, List.zip_cons_cons]; rw [← ih]
  · intro pre k a post hf
    obtain ⟨c, rs, g1, g2, -, g4⟩ := seq_kept (pre.map (·.1)) (LRU.new (V := V) maxS) (inv_new maxS) h0 h0 (fun o ho => hv o (by
      rw [hf]
      simp only [kept, List.map_append, List.filterMap_append, List.mem_append]
      exact Or.inl ho))
    refine ⟨c, rs, g1, ?_⟩
    obtain ⟨a', b1, b2⟩ := boom_step (E := E) c g4 k
    have := seq_at pshared (LRU.new maxS) (pre.map (·.1)) (post.map (·.1)) (.boom k) a (pre.map (·.2)) (post.map (·.2)) (by
      rw [hf] at a1
      simpa using a1) (by simp)
    rw [g2] at this
    have hb : Body.run (pshared.body (.boom k)) c = (c, a') := b1
    rw [this, hb]
    exact b2
  · cases hl : s.lock with
    | none => exact Or.inl rfl
    | some t =>
      obtain ⟨op, b, hi, -⟩ := (Verif.Sync.Locked.inv pshared (fun _ h => (nomatch h)) _ tr s h).held t hl
      exact Or.inr ⟨t, op, b, rfl, hi⟩

/-- Key 2 is asked for, and its miss function panics; goroutine 1 waits meanwhile, and then fetches it as if nothing had happened. -/
def twice : List (Sched (PCall Nat Nat Unit)) :=
  [.call 0 (.boom 2), .go 0, .call 1 (.op (.get 5 2 (.ok 20 1))), .go 1] ++ List.replicate 6 (.go 0) ++ List.replicate 40 (.go 1) ++ [.call 0 (.boom 2)] ++ List.replicate 40 (.go 0)

example : (finished pshared (play pshared ⟨(LRU.new 6 : LRU Nat Nat), none, fun _ => .idle⟩ twice).1).map (·.2) =
    [.error .explicit, .ok (some ⟨20, .miss, none, true⟩), .ok (some ⟨20, .hit, none, false⟩)] := by rfl

/-! ### Mem -/

/-- A call of a `Mem`; `boom` is a `Get` whose miss function panics if it is called. mem.go L22-41. -/
inductive MCall (K V E : Type) where
  | op (o : MemOp K V E)
  | boom (k : K)

/-- The methods as sequences of accesses; the miss function panics at mem.go L35. -/
def mcode : MCall K V E → Body (Mem K V) (Go (Option (Res V E)))
  | .op o => (memCode o).bind fun r => .ret (.ok r)
  | .boom k => .step id fun c => match (c.m.find? fun p => decide (p.1 = k)).map (·.2) with
    | some v => .ret (.ok (some ⟨v, .hit, none, false⟩))
    | none => .ret (.error .explicit)

/-- A `Mem` as an object used by goroutines: both methods lock. mem.go L23-24, L29-30. -/
def mshared : Obj (Mem K V) (MCall K V E) (Go (Option (Res V E))) := ⟨mcode, fun _ => true⟩

/-- The calls without those whose miss function panics. -/
def mkept (l : List (MCall K V E)) : List (MemOp K V E) := l.filterMap fun c => match c with
  | .op o => some o
  | .boom _ => none

/-- What those answered. -/
def mkeptAns (l : List (MCall K V E × Go (Option (Res V E)))) : List (Go (Option (Res V E))) := l.filterMap fun x => match x.1 with
  | .op _ => some x.2
  | .boom _ => none

theorem mop_run (o : MemOp K V E) (c : Mem K V) : Body.run (mshared.body (.op o)) c = ((c.run [o]).1, .ok ((seq memShared c [o]).2.headD none)) ∧ (c.run [o]).2 = [(seq memShared c [o]).2.headD none] := by
  have h := mem_seq [o] c
  simp only [seq] at h
  have h1 := congrArg Prod.fst h
  have h2 := congrArg Prod.snd h
  simp only at h1 h2
  refine ⟨?_, by rw [← h2]; rfl⟩
  rw [← h1]
  exact run_bind (memCode o) _ c

theorem mrun_cons (o : MemOp K V E) (c : Mem K V) (l : List (MemOp K V E)) : c.run (o :: l) = (((c.run [o]).1.run l).1, (c.run [o]).2 ++ ((c.run [o]).1.run l).2) := by
  cases o <;> rfl

theorem mseq_kept (l : List (MCall K V E)) : ∀ (c : Mem K V), (seq mshared c l).1 = (c.run (mkept l)).1 ∧ mkeptAns (l.zip (seq mshared c l).2) = (c.run (mkept l)).2.map .ok := by
  induction l with
  | nil => intro c; exact ⟨rfl, rfl⟩
  | cons x l ih =>
    intro c
    cases x with
    | op o =>
      obtain ⟨h1, h2⟩ := mop_run o c
      obtain ⟨g1, g2⟩ := ih (c.run [o]).1
      have hk : mkept (.op o :: l) = o :: mkept l := rfl
      rw [hk, mrun_cons, h2]
      simp only [seq, h1, List.zip_cons_cons]
      refine ⟨g1, ?_⟩
      show _ :: mkeptAns (l.zip (seq mshared (c.run [o]).1 l).2) = _
      rw [g2]
      rfl
    | boom k =>
      have he : (Body.run (mshared.body (.boom k : MCall K V E)) c).1 = c := by
        simp only [mshared, mcode, Body.run, id]
        split <;> rfl
      obtain ⟨g1, g2⟩ := ih c
      simp only [seq, he, List.zip_cons_cons]
      exact ⟨g1, g2⟩

/-- C190: the same for `Mem`, which is a partial function: a call whose miss function panics leaves it alone. -/
theorem C190_mem_partial (tr : List (Ev (MCall K V E) (Go (Option (Res V E))))) (s : St (Mem K V) (MCall K V E) (Go (Option (Res V E)))) (h : Exec mshared Mem.new tr s) :
    (s.lock = none → s.sh = ((Mem.new : Mem K V).run (mkept ((finished mshared tr).map (·.1)))).1) ∧
    mkeptAns (finished mshared tr) = (memoRun (fun _ => none) (mkept ((finished mshared tr).map (·.1)))).2.map .ok ∧
    (∀ pre k a post, finished mshared tr = pre ++ (.boom k, a) :: post →
      a = match ((Mem.new : Mem K V).run (mkept (pre.map (·.1)))).1.m.find? (fun p => decide (p.1 = k)) with
        | some p => .ok (some ⟨p.2, .hit, none, false⟩)
        | none => .error .explicit) := by
  obtain ⟨a1, a2⟩ := one_by_one mshared (fun _ h => (nomatch h)) _ tr s h
  refine ⟨fun hl => by rw [a2 hl, (mseq_kept _ _).1], ?_, ?_⟩
  · rw [← C06_mem_refines, ← (mseq_kept _ _).2, a1]
    congr 1
    induction finished mshared tr with
    | nil => rfl
    | cons x l ih => simp only [List.map_cons, List.zip_cons_cons]; rw [← ih]
  · intro pre k a post hf
    have := seq_at mshared Mem.new (pre.map (·.1)) (post.map (·.1)) (.boom k) a (pre.map (·.2)) (post.map (·.2)) (by
      rw [hf] at a1
      simpa using a1) (by simp)
    rw [(mseq_kept _ _).1] at this
    rw [this]
    simp only [mshared, mcode, Body.run, id]
    cases ((Mem.new : Mem K V).run (mkept (pre.map (·.1)))).1.m.find? (fun p => decide (p.1 = k)) <;> rfl

example : (finished mshared (play mshared ⟨(Mem.new : Mem Nat Nat), none, fun _ => .idle⟩
      ([.call 0 (.boom 2), .go 0, .call 1 (.op (.get 2 (20, none))), .go 1] ++ List.replicate 6 (.go 0) ++ List.replicate 8 (.go 1) ++ [.call 0 (.boom 2)] ++ List.replicate 8 (.go 0) : List (Sched (MCall Nat Nat Unit)))).1).map (·.2) =
    [.error .explicit, .ok (some ⟨20, .miss, none, true⟩), .ok (some ⟨20, .hit, none, false⟩)] := by rfl

/-! ### RequestCache -/

/-- request.go L35-71 `Request`, where the fetch panics at L57 if it is called: the answer is `none` then. The mutex of the entry is released by the deferred `Unlock` of L44. -/
def requestBoom (zero : V) (s : RCache K V E) (now0 now1 : Nat) (k : K) : Go (RCache K V E × Option (Res V E)) := do
  let (lru, r) ← s.lru.get (E := E) now0 k (.ok s.store.length 1)
  let store := if r.called then s.store ++ [{ key := k, val := zero, err := none, expire := 0, owner := none }] else s.store
  let e ← Go.idx store r.val
  if r.hm ≠ .miss ∧ e.expire ≥ now1 then pure (⟨lru, store⟩, some { val := e.val, hm := .hit, err := e.err, called := false })
  else pure (⟨lru, store⟩, none)

/-- A call; `boom` is one whose fetch panics if it is called. request.go L31-71. -/
inductive RPOp (K V E : Type) where
  | op (o : ROp K V E)
  | boom (now0 now1 : Nat) (k : K)

/-- Clock readings are after the zero time. -/
def RPOp.Valid : RPOp K V E → Prop
  | .op o => o.Valid
  | .boom n0 n1 _ => 0 < n0 ∧ 0 < n1

/-- Calls one after the other; the result is the history of those whose fetch does not panic. request.go L31-71. -/
def runBoom (zero : V) (s : RCache K V E) : List (RPOp K V E) → Go (RCache K V E × List (ROp K V E × Option (Res V E)))
  | [] => .ok (s, [])
  | .op o :: ops => do
    let (s, rs) ← s.run zero [o]
    let (s, h) ← runBoom zero s ops
    pure (s, [o].zip rs ++ h)
  | .boom n0 n1 k :: ops => do
    let (s, _) ← requestBoom zero s n0 n1 k
    runBoom zero s ops

/-- Everything one such `Request` does. -/
theorem boom_spec (zero : V) (s : RCache K V E) (inv : RInv s) (n0 n1 : Nat) (h0 : 0 < n0) (k : K) :
    ∃ s' r, requestBoom zero s n0 n1 k = .ok (s', r) ∧ RInv s' ∧
      ((∃ e ∈ s.lru.heap.list, e.key = k ∧ ∃ x, s.store[e.val]? = some x ∧ x.expire ≥ n1 ∧ s' = s ∧ r = some { val := x.val, hm := .hit, err := x.err, called := false })
      ∨ (∃ e ∈ s.lru.heap.list, e.key = k ∧ ∃ x, s.store[e.val]? = some x ∧ x.expire < n1 ∧ s' = s ∧ r = none)
      ∨ ((∀ e ∈ s.lru.heap.list, e.key ≠ k) ∧ r = none ∧ s'.store = s.store ++ [{ key := k, val := zero, err := none, expire := 0, owner := none }] ∧
          (∀ e ∈ s'.lru.heap.list, e ∈ s.lru.heap.list ∨ (e.key = k ∧ e.val = s.store.length)))) := by
  rcases lookup_cases s inv n0 h0 k with ⟨e, he, hek, hg⟩ | ⟨hk', lru', hg, inv', hmx, hle, hmem⟩
  · obtain ⟨x, hx, hxk⟩ := inv.ptr e he
    have hlt := lt_of_get hx
    have hxe : s.store[e.val] = x := by rw [List.getElem?_eq_getElem hlt] at hx; injection hx
    unfold requestBoom
    rw [hg]
    simp only [bind, Except.bind, Bool.false_eq_true, if_false]
    rw [Go.idx_nat _ _ hlt, hxe]
    simp only
    by_cases hexp : x.expire ≥ n1
    · rw [if_pos ⟨by simp, hexp⟩]
      exact ⟨s, _, rfl, inv, Or.inl ⟨e, he, hek, x, hx, hexp, rfl, rfl⟩⟩
    · rw [if_neg (by simp; omega)]
      exact ⟨s, _, rfl, inv, Or.inr (Or.inl ⟨e, he, hek, x, hx, by omega, rfl, rfl⟩)⟩
  · unfold requestBoom
    rw [hg]
    simp only [bind, Except.bind, if_true]
    have hlt : s.store.length < (s.store ++ [({ key := k, val := zero, err := none, expire := 0, owner := none } : REntry K V E)]).length := by simp
    rw [Go.idx_nat _ _ hlt]
    simp only
    rw [if_neg (by simp)]
    refine ⟨⟨lru', _⟩, none, rfl, ⟨inv', by simp only; have := inv.max; omega, hle, ?_⟩, Or.inr (Or.inr ⟨hk', rfl, rfl, hmem⟩)⟩
    intro e he
    simp only
    rcases hmem e he with h | ⟨hke, hv⟩
    · obtain ⟨x, hx, hxk⟩ := inv.ptr e h
      exact ⟨x, by rw [List.getElem?_append_left (lt_of_get hx)]; exact hx, hxk⟩
    · exact ⟨_, by rw [hv, List.getElem?_concat_length], hke.symm⟩

theorem boom_hist (zero : V) (s s' : RCache K V E) (inv : RInv s) (n0 n1 : Nat) (h0 : 0 < n0) (k : K) (r : Option (Res V E)) (hb : requestBoom zero s n0 n1 k = .ok (s', r))
    (h : List (ROp K V E × Option (Res V E))) (hh : RHist s h) : RHist s' h := by
  obtain ⟨s1, r1, h1, -, hc⟩ := boom_spec zero s inv n0 n1 h0 k
  rw [hb] at h1
  injection h1 with h1; injection h1 with h1 h2
  subst h1
  rcases hc with ⟨e, he, hek, x, hx, hexp, rfl, -⟩ | ⟨e, he, hek, x, hx, hexp, rfl, -⟩ | ⟨hk', -, hst, hmem⟩
  · exact hh
  · exact hh
  · intro e he x hx hne
    rw [hst] at hx
    rcases hmem e he with h' | ⟨hke, hve⟩
    · obtain ⟨y, hy, hyk⟩ := inv.ptr e h'
      rw [List.getElem?_append_left (lt_of_get hy)] at hx
      exact hh e h' x hx hne
    · rw [hve, List.getElem?_concat_length] at hx
      injection hx with hx
      subst hx
      exact absurd rfl hne

theorem runBoom_spec (zero : V) (ops : List (RPOp K V E)) : ∀ (s : RCache K V E) (h : List (ROp K V E × Option (Res V E))), RInv s → (∀ op ∈ ops, op.Valid) → RHist s h →
    ∃ s' h', runBoom zero s ops = .ok (s', h') ∧ RInv s' ∧ RHist s' (h ++ h') := by
  induction ops with
  | nil => intro s h inv _ hh; exact ⟨s, [], rfl, inv, by simpa using hh⟩
  | cons op ops ih =>
    intro s h inv hv hh
    have hvo := hv op (List.mem_cons_self ..)
    have hvr : ∀ op ∈ ops, op.Valid := fun o ho => hv o (List.mem_cons_of_mem _ ho)
    cases op with
    | op o =>
      obtain ⟨s1, rs, g1, g2, g3⟩ := rrun_spec zero [o] s h inv (fun x hx => by rw [List.mem_singleton.1 hx]; exact hvo) hh
      obtain ⟨s', h', k1, k2, k3⟩ := ih s1 _ g2 hvr g3
      refine ⟨s', [o].zip rs ++ h', ?_, k2, by rw [← List.append_assoc]; exact k3⟩
      simp only [runBoom, g1, bind, Except.bind, k1]
      rfl
    | boom n0 n1 k =>
      obtain ⟨s1, r, g1, g2, -⟩ := boom_spec zero s inv n0 n1 hvo.1 k
      obtain ⟨s', h', k1, k2, k3⟩ := ih s1 h g2 hvr (boom_hist zero s s1 inv n0 n1 hvo.1 k r g1 h hh)
      exact ⟨s', h', by simp only [runBoom, g1, bind, Except.bind, k1], k2, k3⟩

/-- C190: whichever fetches panic, no request panics for another reason, and what is served is what the latest fetch for the key which did not panic returned, until it expires. -/
theorem C190_request_partial (zero : V) (maxS : Int) (h0 : 0 ≤ maxS) (ops : List (RPOp K V E)) (hv : ∀ op ∈ ops, op.Valid) :
    ∃ s h, runBoom zero (RCache.new maxS) ops = .ok (s, h) ∧
      ∀ n0 n1 n2 k f, 0 < n0 → 0 < n1 → ∃ s' r, s.request zero n0 n1 n2 k f = .ok (s', r) ∧ (r.called = false → r.hm = .hit ∧ ∃ exp, n1 ≤ exp ∧ FetchedLast k r.val r.err exp h) := by
  obtain ⟨s, h, g1, g2, g3⟩ := runBoom_spec zero ops (RCache.new maxS) [] (rinv_new maxS h0) hv (by intro e he; simp [RCache.new, LRU.new] at he)
  refine ⟨s, h, g1, fun n0 n1 n2 k f hn0 hn1 => ?_⟩
  obtain ⟨s', r, k1, -, -, kc⟩ := request_spec zero s g2 n0 n1 n2 hn0 k f
  refine ⟨s', r, k1, fun hr => ?_⟩
  rcases kc with ⟨e, he, hek, x, hx, hexp, -, rfl⟩ | ⟨e, he, hek, x, hx, hexp, -, rfl⟩ | ⟨-, rfl, -, -⟩
  · refine ⟨rfl, x.expire, hexp, ?_⟩
    have := g3 e he x hx (by omega)
    rw [hek] at this
    exact this
  · rw [fetchRes_called] at hr; cases hr
  · rw [fetchRes_called] at hr; cases hr

/-- C190: a request whose fetch panicked has left nothing that is served: the next request for the key, which is not earlier, fetches. -/
theorem C190_next_partial (zero : V) (maxS : Int) (h0 : 0 ≤ maxS) (ops : List (RPOp K V E)) (hv : ∀ op ∈ ops, op.Valid) (s : RCache K V E) (h : List (ROp K V E × Option (Res V E)))
    (hr : runBoom zero (RCache.new maxS) ops = .ok (s, h)) (n0 n1 : Nat) (k : K) (hn0 : 0 < n0) (hn1 : 0 < n1) (s1 : RCache K V E) (hb : requestBoom zero s n0 n1 k = .ok (s1, none))
    (m0 m1 m2 : Nat) (hm0 : 0 < m0) (hm1 : n1 ≤ m1) (f : Fetch V E) : ∃ s2, s1.request zero m0 m1 m2 k f = .ok (s2, fetchRes f) := by
  obtain ⟨s', h', g1, g2, -⟩ := runBoom_spec zero ops (RCache.new maxS) [] (rinv_new maxS h0) hv (by intro e he; simp [RCache.new, LRU.new] at he)
  rw [hr] at g1
  injection g1 with g1; injection g1 with g1 _
  subst g1
  obtain ⟨s1', r1, b1, b2, bc⟩ := boom_spec zero s g2 n0 n1 hn0 k
  rw [hb] at b1
  injection b1 with b1; injection b1 with b1 b1'
  subst b1
  subst b1'
  obtain ⟨s2, r, k1, -, -, kc⟩ := request_spec zero s1 b2 m0 m1 m2 hm0 k f
  refine ⟨s2, ?_⟩
  rcases kc with ⟨e, he, hek, x, hx, hexp, -, -⟩ | ⟨e, he, hek, x, hx, hexp, -, rfl⟩ | ⟨-, rfl, -, -⟩
  · exfalso
    rcases bc with ⟨_, _, _, _, _, _, _, hn⟩ | ⟨e', he', hek', x', hx', hexp', rfl, -⟩ | ⟨hk', -, hst, hmem⟩
    · cases hn
    · have hee : e' = e := by
        obtain ⟨i, hi⟩ := List.mem_iff_getElem?.1 he'
        obtain ⟨j, hj⟩ := List.mem_iff_getElem?.1 he
        have := index_inj g2.lru.wf.index hi hj (by rw [hek', hek])
        subst this; rw [hi] at hj; injection hj
      subst hee
      rw [hx] at hx'
      injection hx' with hx'
      subst hx'
      omega
    · rcases hmem e he with h' | ⟨-, hve⟩
      · exact hk' e h' hek
      · rw [hst, hve, List.getElem?_concat_length] at hx
        injection hx with hx
        subst hx
        simp only at hexp
        omega
  · exact k1
  · exact k1

/-- C190, violated: `Request` makes room for the result before it has one: a fetch that panics, or whose result is not to be kept, pushes out the result of another key, which was to be served. -/
theorem C190_room_violated : ∃ (s : RCache Nat Nat Unit) (h : _), runBoom 0 (RCache.new 1) [.op (.request 1 1 1 7 ⟨70, 1000, none⟩)] = .ok (s, h) ∧
    (∃ s', s.request 0 2 2 2 7 ⟨71, 1000, none⟩ = .ok (s', ⟨70, .hit, none, false⟩)) ∧
    (∃ s1 s', requestBoom 0 s 2 2 8 = .ok (s1, none) ∧ s1.request 0 3 3 3 7 ⟨71, 1000, none⟩ = .ok (s', ⟨71, .miss, none, true⟩)) ∧
    ∃ s1 s' r, s.request 0 2 2 2 8 ⟨0, 0, some ()⟩ = .ok (s1, r) ∧ r.hm = .err ∧ s1.request 0 3 3 3 7 ⟨71, 1000, none⟩ = .ok (s', ⟨71, .miss, none, true⟩) :=
  ⟨_, _, rfl, ⟨_, rfl⟩, ⟨_, _, rfl, rfl⟩, _, _, _, rfl, rfl, rfl⟩

/-- Any reading of the clock after the zero time will do. -/
example : (RPOp.boom 1 1 7 : RPOp Nat Nat Unit).Valid ∧ ¬ (RPOp.boom 0 1 7 : RPOp Nat Nat Unit).Valid ∧ ¬ (RPOp.boom 1 0 7 : RPOp Nat Nat Unit).Valid := by simp [RPOp.Valid]

/-- A fetch that panics after the first has expired. -/
example : ∃ s h, runBoom 0 (RCache.new 5) ([.op (.request 1 1 1 7 ⟨70, 10, none⟩), .boom 2 2 7, .boom 20 20 7] : List (RPOp Nat Nat Unit)) = .ok (s, h) ∧ h.map (·.2) = [some ⟨70, .miss, none, true⟩] ∧
    ∃ s', s.request 0 21 21 21 7 ⟨71, 10, none⟩ = .ok (s', ⟨71, .miss, none, true⟩) := ⟨_, _, rfl, rfl, _, rfl⟩

end Verif.Caches.Panics

import Verif.Caches.FifoLemmas
/-!
# Properties of utils/caches: LRU and Mem (C01–C06)
-/
set_option linter.unusedSectionVars false
set_option linter.unusedSimpArgs false
namespace Verif.Caches

variable {K V E : Type} [DecidableEq K]

/-- A trace with hits, misses, evictions, an error, an uncached value and an invalidation. -/
def sampleOps : List (Op Nat Nat Unit) :=
  [.get 1 1 (.ok 10 3), .get 2 2 (.ok 20 2), .get 3 1 (.ok 0 0), .get 4 3 (.fail 0 ()), .get 5 4 (.ok 40 0),
   .get 6 5 (.ok 50 4), .inv 2, .get 7 6 (.ok 60 1), .get 8 7 (.ok 70 1)]

theorem sampleOps_valid : ∀ op ∈ sampleOps, op.Valid := by
  simp [sampleOps, Op.Valid]

theorem sampleOps_increasing : Increasing 0 sampleOps := by simp [sampleOps, Increasing]

/-- C01: whatever valid calls are made on a new cache with a non-negative budget, none panics, no key is listed twice, the
tracked total is the sum of the cached sizes and stays within the budget. -/
theorem C01_lru_sound (maxS : Int) (h0 : 0 ≤ maxS) (ops : List (Op K V E)) (hv : ∀ op ∈ ops, op.Valid) :
    ∃ c rs, (LRU.new maxS).run ops = .ok (c, rs) ∧ c.keys.Nodup ∧
      c.curSize = (c.heap.list.map (·.size)).foldr (· + ·) 0 ∧ c.curSize ≤ maxS := by
  obtain ⟨c, rs, hr, inv, hm, hb⟩ := run_inv ops (LRU.new maxS) (inv_new maxS) h0 h0 hv
  refine ⟨c, rs, hr, keys_nodup c.heap inv.wf.index, ?_, by rw [hm] at hb; exact hb⟩
  rw [inv.cur]
  generalize c.heap.list = l
  induction l with
  | nil => rfl
  | cons e l ih => simp [tot, ih]

example : ∃ c rs, (LRU.new 6).run sampleOps = .ok (c, rs) ∧ c.keys = [5, 6, 7] ∧ c.curSize = 6 := ⟨_, _, rfl, rfl, rfl⟩

/-- C01: with a negative budget the first stored entry makes the cache panic (it pops an empty heap), whatever the size. -/
theorem C01_negative_budget_panics (maxS : Int) (h0 : maxS < 0) (now : Nat) (k : K) (v : V) (size : Int) (hs : 0 < size) :
    (LRU.new maxS).get (E := E) now k (.ok v size) = .error .index := by
  unfold LRU.get
  simp only [LRU.new]
  rw [if_neg (by omega)]
  have wf : WF ({ list := [], index := fun _ => none } : Heap K V) := (inv_new (K := K) (V := V) 0).wf
  obtain ⟨h', hp, wf', hperm⟩ := push_spec _ wf { key := k, val := v, last := now, size } rfl
  rw [hp]
  simp only [bind, Except.bind]
  have hl : h'.list = [{ key := k, val := v, last := now, size }] := List.perm_singleton.1 hperm
  rw [hl]
  simp only [List.length_singleton, LRU.evict]
  rw [if_pos (by omega)]
  obtain ⟨h'', e, hpop, wf'', hperm2, hroot, _⟩ := pop_spec h' wf' (by rw [hl]; simp)
  rw [hpop]
  simp only [bind, Except.bind]
  have he : e = { key := k, val := v, last := now, size } := by
    rw [hl] at hroot; simpa using hroot.symm
  have hl'' : h''.list = [] := by
    have := hperm2.length_eq
    rw [hl] at this
    simp at this
    exact this
  subst he
  simp only
  rw [if_pos (by omega), pop_empty h'' hl'']

example : (LRU.new (-1) : LRU Nat Nat).get (E := Unit) 5 1 (.ok 10 1) = .error .index := C01_negative_budget_panics _ (by decide) _ _ _ _ (by decide)

/-- C02: on any reachable cache, `Get` of a cached key hits without calling the miss function, and `Get` of any other key
calls it exactly once and reports MISS, NO or ERR with its value according to what it returned. -/
theorem C02_get_cases (maxS : Int) (h0 : 0 ≤ maxS) (ops : List (Op K V E)) (hv : ∀ op ∈ ops, op.Valid)
    (c : LRU K V) (rs : List (Option (Res V E))) (hrun : (LRU.new maxS).run ops = .ok (c, rs))
    (now : Nat) (k : K) (o : Outcome V E) (hvk : (Op.get now k o).Valid) :
    ∃ c' r, c.get now k o = .ok (c', r) ∧
      (k ∈ c.keys → r.hm = .hit ∧ r.called = false ∧ r.err = none ∧ ∃ e ∈ c.heap.list, e.key = k ∧ r.val = e.val) ∧
      (k ∉ c.keys → r.called = true ∧
        match o with
        | .fail v e => r.val = v ∧ r.hm = .err ∧ r.err = some e ∧ c' = c
        | .ok v size => r.val = v ∧ r.err = none ∧ r.hm = (if size = 0 then .no else .miss) ∧ (size = 0 → c' = c)) := by
  obtain ⟨c1, rs1, hr, inv, hm, hb⟩ := run_inv ops (LRU.new maxS) (inv_new maxS) h0 h0 hv
  rw [hrun] at hr
  injection hr with hr
  injection hr with hr1 hr2
  subst hr1 hr2
  by_cases hk : k ∈ c.keys
  · obtain ⟨e, he, hek⟩ := List.mem_map.1 hk
    exact ⟨c, _, get_hit c inv now k o e he hek, fun _ => ⟨rfl, rfl, rfl, e, he, hek, rfl⟩, fun h => absurd hk h⟩
  · have hk' : ∀ e ∈ c.heap.list, e.key ≠ k := fun e he hek => hk (List.mem_map.2 ⟨e, he, hek⟩)
    have hidx := (index_none_iff c.heap inv.wf.index k).2 hk'
    cases o with
    | fail v e =>
      refine ⟨c, { val := v, hm := .err, err := some e, called := true }, ?_, fun h => absurd h hk, fun _ => ⟨rfl, rfl, rfl, rfl, rfl⟩⟩
      unfold LRU.get; rw [hidx]
    | ok v size =>
      simp only [Op.Valid] at hvk
      by_cases hs : size = 0
      · refine ⟨c, { val := v, hm := .no, err := none, called := true }, ?_, fun h => absurd h hk, fun _ => ⟨rfl, rfl, rfl, by rw [if_pos hs], fun _ => rfl⟩⟩
        unfold LRU.get; rw [hidx]; simp only; rw [if_pos hs]
      · obtain ⟨c', ev, hg, _⟩ := get_miss (E := E) c inv (by rw [hm]; exact h0) now hvk.1 k v size (by omega) hk'
        exact ⟨c', _, hg, fun h => absurd h hk, fun _ => ⟨rfl, rfl, rfl, by rw [if_neg hs], fun h => absurd h hs⟩⟩

/-- A hit and three kinds of miss after the calls above. -/
example : ∃ c rs, (LRU.new 6).run sampleOps = .ok (c, rs) ∧
    [c.get 9 5 (.ok 1 1), c.get 9 1 (.ok 2 1), c.get 9 1 (.ok 3 0), c.get 9 1 (.fail 4 ())].map (fun r => r.toOption.map fun r => (r.2.val, r.2.hm, r.2.called, r.1.keys)) =
      [some (50, .hit, false, [5, 6, 7]), some (2, .miss, true, [6, 1, 7]), some (3, .no, true, [5, 6, 7]), some (4, .err, true, [5, 6, 7])] := ⟨_, _, rfl, by decide⟩

/-- C02: a hit returns the value given by the miss function at the latest miss on that key, with no invalidation of the key
since and only hits on it in between. -/
theorem C02_hit_is_last_stored (maxS : Int) (h0 : 0 ≤ maxS) (ops : List (Op K V E)) (hv : ∀ op ∈ ops, op.Valid)
    (c c' : LRU K V) (rs : List (Option (Res V E))) (hrun : (LRU.new maxS).run ops = .ok (c, rs))
    (now : Nat) (k : K) (o : Outcome V E) (r : Res V E) (hvk : (Op.get now k o).Valid)
    (hget : c.get now k o = .ok (c', r)) (hhit : r.hm = .hit) : StoredLast k r.val (ops.zip rs) := by
  have hst := run_stored ops (LRU.new maxS) [] (inv_new maxS) h0 h0 hv (by simp [LRU.new]) c rs hrun
  obtain ⟨c2, r2, hg, h1, h2⟩ := C02_get_cases maxS h0 ops hv c rs hrun now k o hvk
  rw [hget] at hg
  injection hg with hg
  injection hg with hg1 hg2
  subst hg1 hg2
  by_cases hk : k ∈ c.keys
  · obtain ⟨_, _, _, e, he, hek, hval⟩ := h1 hk
    have := hst e he
    rw [hek] at this
    rw [hval]; simpa using this
  · have := (h2 hk).2
    cases o with
    | fail v e => simp only at this; rw [this.2.1] at hhit; cases hhit
    | ok v size =>
      simp only at this
      rw [this.2.2.1] at hhit
      split at hhit <;> cases hhit

example : ∃ c rs c' r, (LRU.new 6).run sampleOps = .ok (c, rs) ∧ c.get (E := Unit) 9 5 (.ok 1 1) = .ok (c', r) ∧ StoredLast 5 50 (sampleOps.zip rs) :=
  ⟨_, _, _, _, rfl, rfl, C02_hit_is_last_stored 6 (by decide) sampleOps sampleOps_valid _ _ _ rfl 9 5 (.ok 1 1) _ (by simp [Op.Valid]) rfl rfl⟩

/-- C03: on any reachable cache `Invalidate(k)` does not panic, removes exactly the entry of `k`, keeps every other entry
unchanged, and lowers the tracked total by exactly the removed size. -/
theorem C03_invalidate (maxS : Int) (h0 : 0 ≤ maxS) (ops : List (Op K V E)) (hv : ∀ op ∈ ops, op.Valid)
    (c : LRU K V) (rs : List (Option (Res V E))) (hrun : (LRU.new maxS).run ops = .ok (c, rs)) (k : K) :
    ∃ c', c.invalidate k = .ok c' ∧ k ∉ c'.keys ∧
      (∀ e, e ∈ c'.heap.list ↔ e ∈ c.heap.list ∧ e.key ≠ k) ∧ c'.heap.list.Nodup ∧
      (k ∉ c.keys → c' = c) ∧ (∀ e ∈ c.heap.list, e.key = k → c'.curSize = c.curSize - e.size) := by
  obtain ⟨c1, rs1, hr, inv, hm, hb⟩ := run_inv ops (LRU.new maxS) (inv_new maxS) h0 h0 hv
  rw [hrun] at hr
  injection hr with hr
  injection hr with hr1 hr2
  subst hr1 hr2
  obtain ⟨c', h, inv', hmx, hp⟩ := invalidate_spec c inv k
  have hmem : ∀ e, e ∈ c'.heap.list ↔ e ∈ c.heap.list ∧ e.key ≠ k := by
    intro e; rw [hp.mem_iff]; simp
  refine ⟨c', h, ?_, hmem, nodup_of_map _ _ (keys_nodup c'.heap inv'.wf.index), ?_, ?_⟩
  · intro hk
    obtain ⟨e, he, hek⟩ := List.mem_map.1 hk
    exact ((hmem e).1 he).2 hek
  · intro hk
    have hk' : ∀ e ∈ c.heap.list, e.key ≠ k := fun e he hek => hk (List.mem_map.2 ⟨e, he, hek⟩)
    unfold LRU.invalidate at h
    rw [(index_none_iff c.heap inv.wf.index k).2 hk'] at h
    injection h with h; exact h.symm
  · intro e he hek
    have hn := keys_nodup c.heap inv.wf.index
    rw [inv'.cur, inv.cur, tot_perm hp]
    clear hp hmem h hrun
    generalize c.heap.list = l at he hn
    induction l with
    | nil => cases he
    | cons a l ih =>
      simp only [List.map_cons, List.nodup_cons, List.mem_map, not_exists, not_and] at hn
      rw [List.filter_cons]
      simp only [List.mem_cons] at he
      rcases he with rfl | he
      · rw [if_neg (by simp [hek])]
        rw [List.filter_eq_self.2 (by intro x hx; have := hn.1 x hx; rw [hek] at this; simpa using this)]
        simp only [tot]; omega
      · have hak : a.key ≠ k := by intro h; exact hn.1 e he (by rw [hek, h])
        rw [if_pos (by simp [hak])]
        simp only [tot]
        have := ih he hn.2
        omega

example : ∃ c rs, (LRU.new 6).run sampleOps = .ok (c, rs) ∧ ((c.invalidate 5).toOption.map fun c => (c.keys, c.curSize)) = some ([6, 7], 2) ∧
    ((c.invalidate 1).toOption.map fun c => (c.keys, c.curSize)) = some ([5, 6, 7], 6) := ⟨_, _, rfl, by decide, by decide⟩

/-- C04: for any positive clock readings, a miss evicts only entries whose stamps are no later than those of all survivors, and
evicts no more than needed: putting back any non-empty newest part of what was evicted would exceed the budget. -/
theorem C04_eviction_order (maxS : Int) (h0 : 0 ≤ maxS) (ops : List (Op K V E)) (hv : ∀ op ∈ ops, op.Valid)
    (c : LRU K V) (rs : List (Option (Res V E))) (hrun : (LRU.new maxS).run ops = .ok (c, rs))
    (now : Nat) (hnow : 0 < now) (k : K) (v : V) (size : Int) (hs : 0 < size) (hk : k ∉ c.keys) :
    ∃ c' ev, c.get (E := E) now k (.ok v size) = .ok (c', { val := v, hm := .miss, err := none, called := true }) ∧
      ({ key := k, val := v, last := now, size } :: c.heap.list : List (Entry K V)).Perm (ev ++ c'.heap.list) ∧
      (∀ x ∈ ev, ∀ y ∈ c'.heap.list, x.last ≤ y.last) ∧
      ev.Pairwise (fun x y => x.last ≤ y.last) ∧
      (∀ x y, ev = x ++ y → y ≠ [] → ((y ++ c'.heap.list).map (·.size)).foldr (· + ·) 0 > maxS) := by
  obtain ⟨c1, rs1, hr, inv, hm, hb⟩ := run_inv ops (LRU.new maxS) (inv_new maxS) h0 h0 hv
  rw [hrun] at hr
  injection hr with hr
  injection hr with hr1 hr2
  subst hr1 hr2
  have hk' : ∀ e ∈ c.heap.list, e.key ≠ k := fun e he hek => hk (List.mem_map.2 ⟨e, he, hek⟩)
  have hmx : c.maxSize = maxS := hm
  obtain ⟨c', ev, hg, _, _, _, hperm, hord, hpw, hneed⟩ := get_miss (E := E) c inv (by rw [hmx]; exact h0) now hnow k v size hs hk'
  refine ⟨c', ev, hg, hperm, hord, hpw, ?_⟩
  intro x y hxy hy
  have := hneed x y hxy hy
  rw [hmx] at this
  have e : ∀ l : List (Entry K V), tot l = (l.map (·.size)).foldr (· + ·) 0 := by
    intro l
    induction l with
    | nil => rfl
    | cons a l ih => simp [tot, ih]
  rw [← e]; exact this

/-- A value of size 2 pushes out the oldest, of size 4; one of size 6 pushes out all three; one of size 7 does not fit at all. -/
example : ∃ c rs, (LRU.new 6).run sampleOps = .ok (c, rs) ∧ [2, 6, 7].map (fun size => (c.get (E := Unit) 9 8 (.ok 80 size)).toOption.map fun r => r.1.keys) =
    [some [6, 8, 7], some [8], some []] := ⟨_, _, rfl, by decide⟩

/-- C04: with a strictly increasing clock the cache returns, call by call, what a first-in first-out cache without heap, index
or clock returns, and holds the same keys with the same values. -/
theorem C04_refines_fifo (maxS : Int) (h0 : 0 ≤ maxS) (ops : List (Op K V E)) (hv : ∀ op ∈ ops, op.Valid)
    (hinc : Increasing 0 ops) :
    ∃ c, (LRU.new maxS).run ops = .ok (c, (fifoRun maxS [] ops).2) ∧
      (c.heap.list.map (fun e => Item.mk e.key e.val e.size)).Perm (fifoRun maxS [] ops).1 := by
  obtain ⟨c, t, hr, es, hp, _, _, hit⟩ := run_refines ops (LRU.new maxS) 0 [] (inv_new maxS) h0 h0 hv hinc
    ⟨[], by simp [LRU.new], by simp, by simp, rfl⟩
  refine ⟨c, hr, ?_⟩
  have e1 : (LRU.new (K := K) (V := V) maxS).maxSize = maxS := rfl
  rw [e1] at hit
  rw [hit]
  exact (hp.map toItem).symm

example : ∃ c, (LRU.new 6).run sampleOps = .ok (c, (fifoRun 6 [] sampleOps).2) ∧ (c.heap.list.map (fun e => Item.mk e.key e.val e.size)).Perm [⟨5, 50, 4⟩, ⟨6, 60, 1⟩, ⟨7, 70, 1⟩] :=
  C04_refines_fifo 6 (by decide) sampleOps sampleOps_valid sampleOps_increasing

/-- C05 (negation): a hit never changes the cache, so it cannot protect the entry from eviction. -/
theorem C05_hit_changes_nothing (maxS : Int) (h0 : 0 ≤ maxS) (ops : List (Op K V E)) (hv : ∀ op ∈ ops, op.Valid)
    (c c' : LRU K V) (rs : List (Option (Res V E))) (hrun : (LRU.new maxS).run ops = .ok (c, rs))
    (now : Nat) (k : K) (o : Outcome V E) (r : Res V E) (hk : k ∈ c.keys) (hget : c.get now k o = .ok (c', r)) : c' = c := by
  obtain ⟨c1, rs1, hr, inv, hm, hb⟩ := run_inv ops (LRU.new maxS) (inv_new maxS) h0 h0 hv
  rw [hrun] at hr
  injection hr with hr
  injection hr with hr1 hr2
  subst hr1 hr2
  obtain ⟨e, he, hek⟩ := List.mem_map.1 hk
  rw [get_hit c inv now k o e he hek] at hget
  injection hget with hg
  injection hg with hg1 hg2
  exact hg1.symm

example : ∃ c rs r, (LRU.new 6).run sampleOps = .ok (c, rs) ∧ c.get (E := Unit) 99 6 (.ok 1 1) = .ok (c, r) := ⟨_, _, _, rfl, rfl⟩

/-- The trace: store 1, store 2, use 1, store 3, with room for two. -/
def lruTrace : List (Op Nat Nat Unit) :=
  [.get 1 1 (.ok 10 1), .get 2 2 (.ok 20 1), .get 3 1 (.ok 99 1), .get 4 3 (.ok 30 1)]

/-- C05 (negation): key 1 is used after key 2, yet key 1 is the one evicted. -/
theorem C05_lru_violated :
    ∃ c rs, (LRU.new 2).run lruTrace = .ok (c, rs) ∧
      (∃ r, rs[2]? = some (some r) ∧ r.hm = .hit) ∧ 1 ∉ c.keys ∧ 2 ∈ c.keys := by
  refine ⟨_, _, rfl, ⟨_, rfl, rfl⟩, by decide, by decide⟩

/-- C06: on any sequence of calls the memoising cache answers as a partial function that is extended by successful misses and
restricted by invalidations: hits do not call the miss function and errors are not remembered. -/
theorem C06_mem_refines (ops : List (MemOp K V E)) :
    ((Mem.new : Mem K V).run ops).2 = (memoRun (fun _ => none) ops).2 := by
  have gen : ∀ (ops : List (MemOp K V E)) (c : Mem K V) (f : K → Option V),
      (∀ k, f k = (c.m.find? (fun p => decide (p.1 = k))).map (·.2)) → (c.run ops).2 = (memoRun f ops).2 := by
    intro ops
    induction ops with
    | nil => intros; rfl
    | cons op ops ih =>
      intro c f hf
      cases op with
      | get k o =>
        obtain ⟨v, e⟩ := o
        simp only [Mem.run, memoRun, Mem.get]
        have hfk := hf k
        cases hfind : c.m.find? (fun p => decide (p.1 = k)) with
        | some p =>
          rw [hfind] at hfk
          simp only [Option.map_some] at hfk
          rw [hfk]
          simp only
          rw [ih c f hf]
        | none =>
          rw [hfind] at hfk
          simp only [Option.map_none] at hfk
          rw [hfk]
          cases e with
          | some e => simp only; rw [ih c f hf]
          | none =>
            simp only
            rw [ih ⟨(k, v) :: c.m⟩ (fun x => if x = k then some v else f x) (by
              intro x
              simp only [List.find?_cons]
              by_cases hx : x = k
              · subst hx; simp
              · have : ¬ k = x := fun h => hx h.symm
                simp [hx, this, hf])]
      | inv k =>
        simp only [Mem.run, memoRun, Mem.invalidate]
        rw [ih ⟨c.m.filter (fun p => decide (p.1 ≠ k))⟩ (fun x => if x = k then none else f x) (by
          intro x
          simp only
          rw [hf]
          generalize c.m = l
          induction l with
          | nil => simp
          | cons p l ihl =>
            rw [List.filter_cons]
            by_cases hp : p.1 = k
            · by_cases hx : x = k
              · subst hx; rw [if_pos rfl] at ihl; simpa [hp] using ihl
              · rw [if_neg hx] at ihl ⊢
                have : ¬ k = x := fun h => hx h.symm
                simp [hp, this]; simpa using ihl
            · by_cases hx : x = k
              · subst hx
                rw [if_pos rfl] at ihl
                simp [hp]; simpa using ihl
              · rw [if_neg hx] at ihl ⊢
                simp only [hp, ne_eq, not_false_eq_true, decide_true, if_true, List.find?_cons]
                by_cases hpx : p.1 = x
                · simp [hpx]
                · simp only [hpx, decide_false]; simpa using ihl)]
  exact gen ops Mem.new (fun _ => none) (by intro k; rfl)

/-! ### concrete, non-trivial cases meeting the hypotheses -/

example : ∃ c, (LRU.new 6).run sampleOps = .ok (c, (fifoRun 6 [] sampleOps).2) ∧ c.keys = [5, 6, 7] := ⟨_, rfl, rfl⟩

example : (fifoRun 6 [] sampleOps).1 = [⟨5, 50, 4⟩, ⟨6, 60, 1⟩, ⟨7, 70, 1⟩] := by decide

example : ((Mem.new : Mem Nat Nat).run (E := Unit) [.get 1 (5, none), .get 1 (6, none), .inv 1, .get 1 (7, some ()), .get 1 (8, none)]).2.map
    (fun r => r.map (fun r => (r.val, r.hm))) = [some (5, .miss), some (5, .hit), none, some (7, .err), some (8, .miss)] := by decide

end Verif.Caches

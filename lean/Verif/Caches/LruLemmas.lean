import Verif.Caches.HeapLemmas
import Verif.Caches.Spec
set_option linter.unusedSectionVars false
set_option linter.unusedSimpArgs false
namespace Verif.Caches

variable {K V E : Type} [DecidableEq K]

/-- Sum of the sizes of the entries. -/
def tot : List (Entry K V) → Int
  | [] => 0
  | e :: l => e.size + tot l

theorem tot_perm {a b : List (Entry K V)} (h : a.Perm b) : tot a = tot b := by
  induction h with
  | nil => rfl
  | cons x _ ih => simp [tot, ih]
  | swap x y l => simp [tot]; omega
  | trans _ _ ih1 ih2 => rw [ih1, ih2]

theorem tot_nonneg (l : List (Entry K V)) (h : ∀ e ∈ l, 0 < e.size) : 0 ≤ tot l := by
  induction l with
  | nil => simp [tot]
  | cons e l ih =>
    have := h e (by simp)
    have := ih (fun x hx => h x (by simp [hx]))
    simp only [tot]; omega

/-- The cache invariant. -/
structure Inv (c : LRU K V) : Prop where
  wf : WF c.heap
  cur : c.curSize = tot c.heap.list
  size : ∀ e ∈ c.heap.list, 0 < e.size
  last : ∀ e ∈ c.heap.list, 0 < e.last

theorem mem_of_get {l : List α} {i : Nat} {a : α} (h : l[i]? = some a) : a ∈ l := List.mem_iff_getElem?.2 ⟨i, h⟩

theorem lt_of_get {l : List α} {i : Nat} {a : α} (h : l[i]? = some a) : i < l.length := by
  rcases Nat.lt_or_ge i l.length with hlt | hge
  · exact hlt
  · rw [List.getElem?_eq_none hge] at h; cases h

theorem keys_nodup (h : Heap K V) (ok : IndexOK h) : (h.list.map (·.key)).Nodup := by
  rw [List.nodup_iff_pairwise_ne, List.pairwise_map]
  rw [List.pairwise_iff_getElem]
  intro i j hi hj hij heq
  have := index_inj ok (List.getElem?_eq_getElem hi) (List.getElem?_eq_getElem hj) heq
  omega

theorem index_none_iff (h : Heap K V) (ok : IndexOK h) (k : K) : h.index k = none ↔ ∀ e ∈ h.list, e.key ≠ k := by
  constructor
  · intro hn e he hek
    obtain ⟨i, hi⟩ := List.mem_iff_getElem?.1 he
    have := (ok k i).2 ⟨e, hi, hek⟩
    rw [hn] at this; cases this
  · intro hne
    cases hk : h.index k with
    | none => rfl
    | some i =>
      obtain ⟨e, he, hek⟩ := (ok k i).1 hk
      exact absurd hek (hne e (mem_of_get he))

theorem index_some (h : Heap K V) (ok : IndexOK h) {k : K} {i : Nat} (hk : h.index k = some i) :
    ∃ e, h.list[i]? = some e ∧ e.key = k := (ok k i).1 hk

/-- A hit leaves the whole cache state as it was. -/
theorem get_hit (c : LRU K V) (inv : Inv c) (now : Nat) (k : K) (o : Outcome V E) (e : Entry K V)
    (he : e ∈ c.heap.list) (hek : e.key = k) :
    c.get now k o = .ok (c, { val := e.val, hm := .hit, err := none, called := false }) := by
  obtain ⟨i, hi⟩ := List.mem_iff_getElem?.1 he
  have hk := (inv.wf.index k i).2 ⟨e, hi, hek⟩
  have hil := lt_of_get hi
  have hei : c.heap.list[i] = e := by
    rw [List.getElem?_eq_getElem hil] at hi; injection hi
  unfold LRU.get
  rw [hk]
  simp only
  rw [Go.idx_nat _ i hil, fix_noop c.heap inv.wf i hil, hei]
  rfl

/-- The eviction loop, described by what it removes. -/
theorem evict_spec (maxS : Int) (h0 : 0 ≤ maxS) : ∀ (fuel : Nat) (c : LRU K V), c.maxSize = maxS → Inv c → c.heap.list.length < fuel →
    ∃ (c' : LRU K V) (ev : List (Entry K V)), LRU.evict fuel c = .ok c' ∧ Inv c' ∧ c'.maxSize = maxS ∧ c'.curSize ≤ maxS ∧
      c.heap.list.Perm (ev ++ c'.heap.list) ∧
      (∀ x ∈ ev, ∀ y ∈ c'.heap.list, x.last ≤ y.last) ∧
      ev.Pairwise (fun x y => x.last ≤ y.last) ∧
      (∀ x y, ev = x ++ y → y ≠ [] → tot (y ++ c'.heap.list) > maxS) := by
  intro fuel
  induction fuel with
  | zero => intro c _ _ hl; omega
  | succ fuel ih =>
    intro c hmx inv hl
    unfold LRU.evict
    by_cases hcur : c.curSize > c.maxSize
    · rw [if_pos hcur]
      have hne : c.heap.list ≠ [] := by
        intro he
        have := inv.cur
        rw [he] at this; simp [tot] at this
        omega
      obtain ⟨h', e, hp, wf', hperm, _, hmin⟩ := pop_spec c.heap inv.wf hne
      rw [hp]
      simp only [bind, Except.bind]
      have hlen := hperm.length_eq
      simp at hlen
      have htot := tot_perm hperm
      simp only [tot] at htot
      have hinv' : Inv { c with heap := h', curSize := c.curSize - e.size } := by
        refine ⟨wf', ?_, ?_, ?_⟩
        · simp only; rw [inv.cur, htot]; omega
        · intro x hx; exact inv.size x (hperm.mem_iff.2 (by simp [hx]))
        · intro x hx; exact inv.last x (hperm.mem_iff.2 (by simp [hx]))
      obtain ⟨c', ev, hev, inv', hmx', hle, hperm', hord, hpw, hneed⟩ := ih { c with heap := h', curSize := c.curSize - e.size } hmx hinv' (by simp only; omega)
      simp only at hperm'
      refine ⟨c', e :: ev, hev, inv', hmx', hle, hperm.trans (by simpa using hperm'.cons e), ?_, ?_, ?_⟩
      · intro x hx y hy
        simp only [List.mem_cons] at hx
        rcases hx with rfl | hx
        · exact hmin y (hperm.mem_iff.2 (by
            simp only [List.mem_cons]; right
            exact hperm'.mem_iff.2 (by simp [hy])))
        · exact hord x hx y hy
      · rw [List.pairwise_cons]
        refine ⟨?_, hpw⟩
        intro y hy
        exact hmin y (hperm.mem_iff.2 (by
            simp only [List.mem_cons]; right
            exact hperm'.mem_iff.2 (by simp [hy])))
      · intro x y hxy hy
        cases x with
        | nil =>
          simp at hxy
          rw [← hxy]
          have e1 : tot c.heap.list = tot (e :: ev ++ c'.heap.list) := tot_perm (hperm.trans (by simpa using hperm'.cons e))
          rw [← e1, ← inv.cur]; omega
        | cons a x =>
          simp at hxy
          exact hneed x y hxy.2 hy
    · rw [if_neg hcur]
      refine ⟨c, [], rfl, inv, hmx, by omega, by simp, by simp, by simp, ?_⟩
      intro x y hxy hy
      have : y = [] := by
        cases y with
        | nil => rfl
        | cons a y => cases x <;> simp at hxy
      exact absurd this hy

/-- A miss that stores. -/
theorem get_miss (c : LRU K V) (inv : Inv c) (h0 : 0 ≤ c.maxSize) (now : Nat) (hnow : 0 < now) (k : K) (v : V) (size : Int) (hs : 0 < size)
    (hk : ∀ e ∈ c.heap.list, e.key ≠ k) :
    ∃ c' ev, c.get (E := E) now k (.ok v size) = .ok (c', { val := v, hm := .miss, err := none, called := true }) ∧
      Inv c' ∧ c'.maxSize = c.maxSize ∧ c'.curSize ≤ c.maxSize ∧
      ({ key := k, val := v, last := now, size } :: c.heap.list : List (Entry K V)).Perm (ev ++ c'.heap.list) ∧
      (∀ x ∈ ev, ∀ y ∈ c'.heap.list, x.last ≤ y.last) ∧
      ev.Pairwise (fun x y => x.last ≤ y.last) ∧
      (∀ x y, ev = x ++ y → y ≠ [] → tot (y ++ c'.heap.list) > c.maxSize) := by
  have hidx := (index_none_iff c.heap inv.wf.index k).2 hk
  unfold LRU.get
  rw [hidx]
  simp only
  rw [if_neg (by omega)]
  obtain ⟨h', hp, wf', hperm⟩ := push_spec c.heap inv.wf { key := k, val := v, last := now, size } hidx
  rw [hp]
  simp only [bind, Except.bind]
  have htot := tot_perm hperm
  simp only [tot] at htot
  have hinv' : Inv { c with heap := h', curSize := c.curSize + size } := by
    refine ⟨wf', ?_, ?_, ?_⟩
    · simp only; rw [htot, inv.cur]; omega
    · intro x hx
      have := hperm.mem_iff.1 hx
      simp only [List.mem_cons] at this
      rcases this with rfl | h
      · exact hs
      · exact inv.size x h
    · intro x hx
      have := hperm.mem_iff.1 hx
      simp only [List.mem_cons] at this
      rcases this with rfl | h
      · exact hnow
      · exact inv.last x h
  obtain ⟨c', ev, hev, inv', hmx', hle, hperm', hord, hpw, hneed⟩ := evict_spec c.maxSize h0 (h'.list.length + 1) { c with heap := h', curSize := c.curSize + size } rfl hinv' (by simp)
  rw [hev]
  exact ⟨c', ev, rfl, inv', hmx', hle, hperm.symm.trans hperm', hord, hpw, hneed⟩

theorem map_key_set (l : List (Entry K V)) (i : Nat) (e : Entry K V) (hi : l[i]? = some e) :
    (l.set i { e with last := 0 }).map (·.key) = l.map (·.key) := by
  apply List.ext_getElem?
  intro p
  simp only [List.getElem?_map]
  by_cases hp : p = i
  · subst hp
    rw [List.getElem?_set_self (lt_of_get hi), hi]; rfl
  · rw [List.getElem?_set_ne (by omega)]

theorem tot_set (l : List (Entry K V)) (i : Nat) (e : Entry K V) (hi : l[i]? = some e) :
    tot (l.set i { e with last := 0 }) = tot l := by
  induction l generalizing i with
  | nil => simp
  | cons a l ih =>
    cases i with
    | zero => simp at hi; simp [tot, hi]
    | succ i =>
      simp at hi
      simp only [List.set_cons_succ, tot]
      rw [ih i hi]

theorem nodup_of_map {α β : Type} (f : α → β) (l : List α) (h : (l.map f).Nodup) : l.Nodup := by
  rw [List.nodup_iff_pairwise_ne, List.pairwise_map] at h
  rw [List.nodup_iff_pairwise_ne]
  exact h.imp (fun hne heq => hne (by rw [heq]))

/-- `Invalidate` of a cached key removes exactly that entry. -/
theorem invalidate_spec (c : LRU K V) (inv : Inv c) (k : K) :
    ∃ c', c.invalidate k = .ok c' ∧ Inv c' ∧ c'.maxSize = c.maxSize ∧
      c'.heap.list.Perm (c.heap.list.filter (fun e => decide (e.key ≠ k))) := by
  unfold LRU.invalidate
  cases hk : c.heap.index k with
  | none =>
    refine ⟨c, rfl, inv, rfl, ?_⟩
    have := (index_none_iff c.heap inv.wf.index k).1 hk
    rw [List.filter_eq_self.2 (by intro e he; simpa using this e he)]
  | some i =>
    obtain ⟨e, hi, hek⟩ := index_some c.heap inv.wf.index hk
    have hil := lt_of_get hi
    have hei : c.heap.list[i] = e := by
      rw [List.getElem?_eq_getElem hil] at hi; injection hi
    simp only
    rw [Go.idx_nat _ i hil, hei]
    simp only [bind, Except.bind]
    rw [Go.set_nat _ i _ hil]
    simp only
    obtain ⟨h1, hfix, wf1, hperm1⟩ := fix_zero c.heap inv.wf i e hi
    rw [hfix]
    simp only
    have hmem0 : { e with last := 0 } ∈ h1.list := by
      apply hperm1.mem_iff.2
      exact mem_of_get (List.getElem?_set_self hil)
    obtain ⟨h2, r, hpop, wf2, hperm2, hroot, hmin⟩ := pop_spec h1 wf1 (by intro hnil; rw [hnil] at hmem0; cases hmem0)
    rw [hpop]
    simp only
    have hr0 : r.last = 0 := by
      have := hmin _ hmem0
      simpa using this
    -- the root is the invalidated entry
    have hrmem : r ∈ c.heap.list.set i { e with last := 0 } := hperm1.mem_iff.1 (mem_of_get hroot)
    have hr : r = { e with last := 0 } := by
      obtain ⟨p, hp⟩ := List.mem_iff_getElem?.1 hrmem
      by_cases hpi : p = i
      · subst hpi
        rw [List.getElem?_set_self hil] at hp
        injection hp with hp; exact hp.symm
      · rw [List.getElem?_set_ne (by omega)] at hp
        have := inv.last r (mem_of_get hp)
        omega
    have hidx2 : h2.index r.key = none := by
      rw [index_none_iff h2 wf2.index]
      have hnd := keys_nodup h1 wf1.index
      have := (hperm2.map (·.key)).nodup_iff.1 hnd
      simp only [List.map_cons, List.nodup_cons, List.mem_map, not_exists, not_and] at this
      intro x hx; exact this.1 x hx
    have hupd : upd h2.index r.key none = h2.index := by
      funext x
      unfold upd
      split
      · rename_i hx; rw [hx, hidx2]
      · rfl
    refine ⟨_, rfl, ?_, rfl, ?_⟩
    · -- Inv
      have p12 : (c.heap.list.set i { e with last := 0 }).Perm (r :: h2.list) := hperm1.symm.trans hperm2
      have hmem2 : ∀ x ∈ h2.list, x ∈ c.heap.list := by
        intro x hx
        have hx' : x ∈ c.heap.list.set i { e with last := 0 } := p12.mem_iff.2 (by simp [hx])
        obtain ⟨p, hp⟩ := List.mem_iff_getElem?.1 hx'
        by_cases hpi : p = i
        · subst hpi
          rw [List.getElem?_set_self hil] at hp
          injection hp with hp
          have : x.key = r.key := by rw [hr, ← hp]
          exact absurd this ((index_none_iff h2 wf2.index r.key).1 hidx2 x hx)
        · rw [List.getElem?_set_ne (by omega)] at hp
          exact mem_of_get hp
      refine ⟨?_, ?_, ?_, ?_⟩
      · simp only; rw [hupd]; exact wf2
      · simp only
        rw [inv.cur]
        have h1 := tot_perm p12
        simp only [tot] at h1
        have hset := tot_set c.heap.list i e hi
        omega
      · intro x hx; exact inv.size x (hmem2 x hx)
      · intro x hx; exact inv.last x (hmem2 x hx)
    · simp only
      -- both sides are duplicate free and have the same members
      have hn2 : h2.list.Nodup := by
        have := keys_nodup h2 wf2.index
        exact nodup_of_map _ _ this
      have hn1 : c.heap.list.Nodup := nodup_of_map _ _ (keys_nodup c.heap inv.wf.index)
      have p12 : (c.heap.list.set i { e with last := 0 }).Perm (r :: h2.list) := hperm1.symm.trans hperm2
      rw [List.perm_ext_iff_of_nodup hn2 (hn1.filter _)]
      intro x
      simp only [List.mem_filter, ne_eq, decide_not, Bool.not_eq_eq_eq_not, Bool.not_true, decide_eq_false_iff_not]
      constructor
      · intro hx
        have hxk : x.key ≠ r.key := (index_none_iff h2 wf2.index r.key).1 hidx2 x hx
        have hrk : r.key = k := by rw [hr]; exact hek
        refine ⟨?_, by rw [← hrk]; exact hxk⟩
        have hx' : x ∈ c.heap.list.set i { e with last := 0 } := p12.mem_iff.2 (by simp [hx])
        obtain ⟨p, hp⟩ := List.mem_iff_getElem?.1 hx'
        by_cases hpi : p = i
        · subst hpi
          rw [List.getElem?_set_self hil] at hp
          injection hp with hp
          exact absurd (by rw [hr, ← hp]) hxk
        · rw [List.getElem?_set_ne (by omega)] at hp
          exact mem_of_get hp
      · intro ⟨hx, hxk⟩
        obtain ⟨p, hp⟩ := List.mem_iff_getElem?.1 hx
        have hpi : p ≠ i := by
          rintro rfl
          rw [hi] at hp; injection hp with hp
          rw [← hp] at hxk; exact hxk hek
        have hx' : x ∈ c.heap.list.set i { e with last := 0 } := by
          apply mem_of_get (i := p)
          rw [List.getElem?_set_ne (by omega)]; exact hp
        have := p12.mem_iff.1 hx'
        simp only [List.mem_cons] at this
        rcases this with h | h
        · rw [h, hr] at hxk; exact absurd hek hxk
        · exact h

theorem inv_new (maxS : Int) : Inv (LRU.new (K := K) (V := V) maxS) := by
  refine ⟨⟨?_, ?_⟩, rfl, by simp [LRU.new], by simp [LRU.new]⟩
  · intro k i; simp [LRU.new]
  · intro p h1 h2; simp [LRU.new] at h2

/-- One `get`, all cases, keeps the invariant. -/
theorem get_inv (c : LRU K V) (inv : Inv c) (h0 : 0 ≤ c.maxSize) (hb : c.curSize ≤ c.maxSize) (now : Nat) (k : K) (o : Outcome V E)
    (hv : (Op.get now k o).Valid) :
    ∃ c' r, c.get now k o = .ok (c', r) ∧ Inv c' ∧ c'.maxSize = c.maxSize ∧ c'.curSize ≤ c'.maxSize := by
  by_cases hk : ∃ e ∈ c.heap.list, e.key = k
  · obtain ⟨e, he, hek⟩ := hk
    exact ⟨c, _, get_hit c inv now k o e he hek, inv, rfl, hb⟩
  · have hk' : ∀ e ∈ c.heap.list, e.key ≠ k := fun e he hek => hk ⟨e, he, hek⟩
    have hidx := (index_none_iff c.heap inv.wf.index k).2 hk'
    cases o with
    | fail v e =>
      refine ⟨c, { val := v, hm := .err, err := some e, called := true }, ?_, inv, rfl, hb⟩
      unfold LRU.get; rw [hidx]
    | ok v size =>
      simp only [Op.Valid] at hv
      by_cases hs : size = 0
      · refine ⟨c, { val := v, hm := .no, err := none, called := true }, ?_, inv, rfl, hb⟩
        unfold LRU.get; rw [hidx]; simp only; rw [if_pos hs]
      · obtain ⟨c', ev, hg, inv', hmx, hle, _⟩ := get_miss (E := E) c inv h0 now hv.1 k v size (by omega) hk'
        exact ⟨c', _, hg, inv', hmx, by omega⟩

theorem invalidate_inv (c : LRU K V) (inv : Inv c) (hb : c.curSize ≤ c.maxSize) (k : K) :
    ∃ c', c.invalidate k = .ok c' ∧ Inv c' ∧ c'.maxSize = c.maxSize ∧ c'.curSize ≤ c'.maxSize := by
  obtain ⟨c', h, inv', hmx, hp⟩ := invalidate_spec c inv k
  refine ⟨c', h, inv', hmx, ?_⟩
  have := tot_perm hp
  have hle : tot (c.heap.list.filter (fun e => decide (e.key ≠ k))) ≤ tot c.heap.list := by
    have hs := inv.size
    generalize c.heap.list = l at hs
    induction l with
    | nil => simp
    | cons a l ih =>
      have h1 := ih (fun e he => hs e (by simp [he]))
      have h2 := hs a (by simp)
      rw [List.filter_cons]
      split <;> simp only [tot] <;> omega
  rw [inv'.cur, hmx, this]
  have := inv.cur
  omega

/-- All calls keep the invariant and none panics. -/
theorem run_inv (ops : List (Op K V E)) : ∀ (c : LRU K V), Inv c → 0 ≤ c.maxSize → c.curSize ≤ c.maxSize →
    (∀ op ∈ ops, op.Valid) →
    ∃ c' rs, c.run ops = .ok (c', rs) ∧ Inv c' ∧ c'.maxSize = c.maxSize ∧ c'.curSize ≤ c'.maxSize := by
  induction ops with
  | nil => intro c inv h0 hb _; exact ⟨c, [], rfl, inv, rfl, hb⟩
  | cons op ops ih =>
    intro c inv h0 hb hv
    cases op with
    | get now k o =>
      obtain ⟨c1, r, hg, inv1, hm1, hb1⟩ := get_inv c inv h0 hb now k o (hv _ (by simp))
      obtain ⟨c2, rs, hr, inv2, hm2, hb2⟩ := ih c1 inv1 (by omega) hb1 (fun op h => hv op (by simp [h]))
      refine ⟨c2, some r :: rs, ?_, inv2, by omega, hb2⟩
      simp only [LRU.run]
      rw [hg]
      simp only [bind, Except.bind]
      rw [hr]; rfl
    | inv k =>
      obtain ⟨c1, hg, inv1, hm1, hb1⟩ := invalidate_inv c inv hb k
      obtain ⟨c2, rs, hr, inv2, hm2, hb2⟩ := ih c1 inv1 (by omega) hb1 (fun op h => hv op (by simp [h]))
      refine ⟨c2, none :: rs, ?_, inv2, by omega, hb2⟩
      simp only [LRU.run]
      rw [hg]
      simp only [bind, Except.bind]
      rw [hr]; rfl

end Verif.Caches

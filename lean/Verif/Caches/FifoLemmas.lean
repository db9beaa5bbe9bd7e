import Verif.Caches.LruLemmas
set_option linter.unusedSectionVars false
set_option linter.unusedSimpArgs false
namespace Verif.Caches

variable {K V E : Type} [DecidableEq K]

def toItem (e : Entry K V) : Item K V := ⟨e.key, e.val, e.size⟩

theorem total_map (l : List (Entry K V)) : total (l.map toItem) = tot l := by
  induction l with
  | nil => rfl
  | cons e l ih => simp [total, tot, toItem, ih]

/-- Two lists with the same members, both strictly increasing by stamp, are equal. -/
theorem sorted_unique {a b : List (Entry K V)} (hp : a.Perm b)
    (ha : a.Pairwise (fun x y => x.last < y.last)) (hb : b.Pairwise (fun x y => x.last < y.last)) : a = b := by
  induction a generalizing b with
  | nil => exact (hp.nil_eq)
  | cons x a ih =>
    cases b with
    | nil => exact hp.eq_nil
    | cons y b =>
      rw [List.pairwise_cons] at ha hb
      have hxy : x = y := by
        have h1 : x ∈ y :: b := hp.mem_iff.1 (by simp)
        have h2 : y ∈ x :: a := hp.mem_iff.2 (by simp)
        simp only [List.mem_cons] at h1 h2
        rcases h1 with h1 | h1
        · exact h1
        · rcases h2 with h2 | h2
          · exact h2.symm
          · have := hb.1 x h1
            have := ha.1 y h2
            omega
      subst hxy
      rw [ih (hp.cons_inv) ha.2 hb.2]

/-- `fit` drops exactly a prefix `ev` when everything up to there must go and the rest fits. -/
theorem fit_append (max : Int) (ev rest : List (Entry K V)) (hfit : tot rest ≤ max)
    (hneed : ∀ x y, ev = x ++ y → y ≠ [] → tot (y ++ rest) > max) :
    fit max ((ev ++ rest).map toItem) = rest.map toItem := by
  induction ev with
  | nil =>
    simp only [List.nil_append]
    cases rest with
    | nil => rfl
    | cons e rest =>
      simp only [List.map_cons, fit]
      rw [if_neg]
      have := total_map (e :: rest)
      simp only [List.map_cons] at this
      rw [this]; omega
  | cons e ev ih =>
    simp only [List.cons_append, List.map_cons, fit]
    rw [if_pos]
    · apply ih
      intro x y hxy hy
      exact hneed (e :: x) y (by simp [hxy]) hy
    · have := total_map (e :: (ev ++ rest))
      simp only [List.map_cons] at this
      rw [this]
      exact hneed [] (e :: ev) rfl (by simp)

/-- Abstraction: the FIFO items are the heap entries sorted by stamp, all older than the clock. -/
def Rel (t : Nat) (c : LRU K V) (items : List (Item K V)) : Prop :=
  ∃ es : List (Entry K V), es.Perm c.heap.list ∧ es.Pairwise (fun x y => x.last < y.last) ∧
    (∀ e ∈ es, e.last ≤ t) ∧ items = es.map toItem

theorem find_items (es : List (Entry K V)) (k : K) :
    (es.map toItem).find? (fun x => decide (x.key = k)) = (es.find? (fun e => decide (e.key = k))).map toItem := by
  induction es with
  | nil => rfl
  | cons e es ih =>
    simp only [List.map_cons, List.find?_cons]
    by_cases h : e.key = k
    · simp [toItem, h]
    · simp [toItem, h]
      simpa [toItem] using ih

theorem get_refines (c : LRU K V) (inv : Inv c) (h0 : 0 ≤ c.maxSize) (hb : c.curSize ≤ c.maxSize) (t now : Nat) (ht : t < now) (k : K)
    (o : Outcome V E) (hv : (Op.get now k o).Valid) (items : List (Item K V)) (rel : Rel t c items) :
    ∃ c' r, c.get now k o = .ok (c', r) ∧ Inv c' ∧ c'.maxSize = c.maxSize ∧ c'.curSize ≤ c'.maxSize ∧
      (fifoGet c.maxSize items k o).2 = r ∧ Rel now c' (fifoGet c.maxSize items k o).1 := by
  obtain ⟨es, hperm, hsort, hlt, rfl⟩ := rel
  have hrel : Rel now c (es.map toItem) := ⟨es, hperm, hsort, fun e he => by have := hlt e he; omega, rfl⟩
  cases hf : es.find? (fun e => decide (e.key = k)) with
  | some e =>
    have he : e ∈ es := List.mem_of_find?_eq_some hf
    have hek : e.key = k := by simpa using List.find?_some hf
    refine ⟨c, _, get_hit c inv now k o e (hperm.mem_iff.1 he) hek, inv, rfl, hb, ?_, ?_⟩
    · unfold fifoGet; rw [find_items, hf]; rfl
    · unfold fifoGet; rw [find_items, hf]; exact hrel
  | none =>
    have hk' : ∀ e ∈ c.heap.list, e.key ≠ k := by
      intro e he
      have := List.find?_eq_none.1 hf e (hperm.mem_iff.2 he)
      simpa using this
    have hidx := (index_none_iff c.heap inv.wf.index k).2 hk'
    cases o with
    | fail v e =>
      refine ⟨c, { val := v, hm := .err, err := some e, called := true }, ?_, inv, rfl, hb, ?_, ?_⟩
      · unfold LRU.get; rw [hidx]
      · unfold fifoGet; rw [find_items, hf]; rfl
      · unfold fifoGet; rw [find_items, hf]; exact hrel
    | ok v size =>
      simp only [Op.Valid] at hv
      by_cases hs : size = 0
      · refine ⟨c, { val := v, hm := .no, err := none, called := true }, ?_, inv, rfl, hb, ?_, ?_⟩
        · unfold LRU.get; rw [hidx]; simp only; rw [if_pos hs]
        · unfold fifoGet; rw [find_items, hf]; simp only [Option.map_none]; rw [if_pos hs]
        · unfold fifoGet; rw [find_items, hf]; simp only [Option.map_none]; rw [if_pos hs]; exact hrel
      · obtain ⟨c', ev, hg, inv', hmx, hle, hperm', hord, hpw, hneed⟩ := get_miss (E := E) c inv h0 now hv.1 k v size (by omega) hk'
        refine ⟨c', _, hg, inv', hmx, by omega, ?_, ?_⟩
        · unfold fifoGet; rw [find_items, hf]; simp only [Option.map_none]; rw [if_neg hs]
        · unfold fifoGet; rw [find_items, hf]; simp only [Option.map_none]; rw [if_neg hs]
          simp only
          -- the sorted entries after insertion
          let ne : Entry K V := { key := k, val := v, last := now, size }
          have hsort' : (es ++ [ne]).Pairwise (fun x y => x.last < y.last) := by
            rw [List.pairwise_append]
            refine ⟨hsort, by simp, ?_⟩
            intro a ha b hb'
            simp at hb'
            subst hb'
            have := hlt a ha
            show a.last < now
            omega
          have hpall : (es ++ [ne]).Perm (ev ++ c'.heap.list) :=
            (List.perm_append_singleton ne es).trans ((hperm.cons ne).trans hperm')
          -- sort the survivors
          obtain ⟨ss, hss1, hss2⟩ : ∃ ss : List (Entry K V), ss.Perm c'.heap.list ∧ es ++ [ne] = ev ++ ss := by
            -- survivors in the order of es ++ [ne]
            have hlast_inj : ∀ x ∈ es ++ [ne], ∀ y ∈ es ++ [ne], x.last = y.last → x = y := by
              intro x hx y hy hxy
              obtain ⟨i, hi⟩ := List.mem_iff_getElem.1 hx
              obtain ⟨j, hj⟩ := List.mem_iff_getElem.1 hy
              obtain ⟨hi1, hi2⟩ := hi
              obtain ⟨hj1, hj2⟩ := hj
              rw [List.pairwise_iff_getElem] at hsort'
              rcases Nat.lt_trichotomy i j with h | h | h
              · have := hsort' i j hi1 hj1 h
                rw [hi2, hj2] at this; omega
              · subst h; rw [← hi2, ← hj2]
              · have := hsort' j i hj1 hi1 h
                rw [hi2, hj2] at this; omega
            have hnd : (ev ++ c'.heap.list).Nodup := by
              rw [← hpall.nodup_iff]
              exact hsort'.imp (fun h heq => by rw [heq] at h; omega)
            let ss := c'.heap.list.mergeSort (fun a b => decide (a.last ≤ b.last))
            have hssp : ss.Perm c'.heap.list := List.mergeSort_perm _ _
            refine ⟨ss, hssp, ?_⟩
            apply sorted_unique (hpall.trans (hssp.symm.append_left ev)) hsort'
            have hle : (ev ++ ss).Pairwise (fun x y => x.last ≤ y.last) := by
              rw [List.pairwise_append]
              refine ⟨hpw, ?_, ?_⟩
              · have := List.pairwise_mergeSort (le := fun (a b : Entry K V) => decide (a.last ≤ b.last)) (by intro a b c; simp; omega) (by intro a b; simp; omega) c'.heap.list
                exact this.imp (fun h => by simpa using h)
              · intro x hx y hy
                exact hord x hx y (hssp.mem_iff.1 hy)
            have hnd2 : (ev ++ ss).Nodup := ((hssp.append_left ev).nodup_iff).2 hnd
            have hboth := hle.and hnd2
            have hmem : ∀ x ∈ ev ++ ss, x ∈ es ++ [ne] := by
              intro x hx
              exact hpall.mem_iff.2 ((hssp.append_left ev).mem_iff.1 hx)
            rw [List.pairwise_iff_getElem] at hboth ⊢
            intro i j hi hj hij
            have h1 := hboth i j hi hj hij
            rcases Nat.lt_or_ge (ev ++ ss)[i].last (ev ++ ss)[j].last with h | h
            · exact h
            · exact absurd (hlast_inj _ (hmem _ (List.getElem_mem hi)) _ (hmem _ (List.getElem_mem hj)) (by omega)) h1.2
          have hitems : es.map toItem ++ [⟨k, v, size⟩] = (ev ++ ss).map toItem := by
            rw [← hss2]; simp [toItem, ne]
          rw [hitems]
          have htss : tot ss = tot c'.heap.list := tot_perm hss1
          rw [fit_append c.maxSize ev ss (by rw [htss, ← inv'.cur]; omega) (by
            intro x y hxy hy
            have := hneed x y hxy hy
            rw [tot_perm (hss1.append_left y)]; exact this)]
          refine ⟨ss, hss1, ?_, ?_, rfl⟩
          · rw [hss2, List.pairwise_append] at hsort'
            exact hsort'.2.1
          · intro e he
            have : e ∈ es ++ [ne] := by rw [hss2]; simp [he]
            simp only [List.mem_append, List.mem_singleton] at this
            rcases this with h | h
            · have := hlt e h; omega
            · rw [h]; exact Nat.le_refl now

theorem inv_refines (c : LRU K V) (inv : Inv c) (hb : c.curSize ≤ c.maxSize) (t : Nat) (k : K) (items : List (Item K V)) (rel : Rel t c items) :
    ∃ c', c.invalidate k = .ok c' ∧ Inv c' ∧ c'.maxSize = c.maxSize ∧ c'.curSize ≤ c'.maxSize ∧
      Rel t c' (items.filter (fun x => decide (x.key ≠ k))) := by
  obtain ⟨es, hperm, hsort, hlt, rfl⟩ := rel
  obtain ⟨c', h, inv', hmx, hp⟩ := invalidate_spec c inv k
  obtain ⟨c'', h2, _, _, hb2⟩ := invalidate_inv c inv hb k
  rw [h] at h2; injection h2 with h2; subst h2
  refine ⟨c', h, inv', hmx, hb2, es.filter (fun e => decide (e.key ≠ k)), ?_, hsort.filter _, ?_, ?_⟩
  · exact (hperm.filter _).trans hp.symm
  · intro e he; exact hlt e (List.mem_filter.1 he).1
  · rw [List.filter_map]; rfl

theorem run_refines (ops : List (Op K V E)) : ∀ (c : LRU K V) (t : Nat) (items : List (Item K V)), Inv c → 0 ≤ c.maxSize →
    c.curSize ≤ c.maxSize → (∀ op ∈ ops, op.Valid) → Increasing t ops → Rel t c items →
    ∃ c' t', c.run ops = .ok (c', (fifoRun c.maxSize items ops).2) ∧ Rel t' c' (fifoRun c.maxSize items ops).1 := by
  induction ops with
  | nil => intro c t items inv h0 hb _ _ rel; exact ⟨c, t, rfl, rel⟩
  | cons op ops ih =>
    intro c t items inv h0 hb hv hinc rel
    cases op with
    | get now k o =>
      simp only [Increasing] at hinc
      obtain ⟨c1, r, hg, inv1, hm1, hb1, hr, rel1⟩ := get_refines c inv h0 hb t now hinc.1 k o (hv _ (by simp)) items rel
      obtain ⟨c2, t2, h2, rel2⟩ := ih c1 now _ inv1 (by omega) hb1 (fun op h => hv op (by simp [h])) hinc.2 rel1
      rw [hm1] at h2 rel2
      refine ⟨c2, t2, ?_, ?_⟩
      · simp only [LRU.run]
        rw [hg]
        simp only [bind, Except.bind]
        rw [h2]
        simp only [fifoRun]; rw [hr]; rfl
      · exact rel2
    | inv k =>
      simp only [Increasing] at hinc
      obtain ⟨c1, hg, inv1, hm1, hb1, rel1⟩ := inv_refines c inv hb t k items rel
      obtain ⟨c2, t2, h2, rel2⟩ := ih c1 t _ inv1 (by omega) hb1 (fun op h => hv op (by simp [h])) hinc rel1
      rw [hm1] at h2 rel2
      refine ⟨c2, t2, ?_, ?_⟩
      · simp only [LRU.run]
        rw [hg]
        simp only [bind, Except.bind]
        rw [h2]
        rfl
      · exact rel2

/-- History invariant: every cached entry was stored by the latest relevant miss on its key. -/
theorem run_stored (ops : List (Op K V E)) : ∀ (c : LRU K V) (h : List (Op K V E × Option (Res V E))), Inv c → 0 ≤ c.maxSize →
    c.curSize ≤ c.maxSize → (∀ op ∈ ops, op.Valid) → (∀ e ∈ c.heap.list, StoredLast e.key e.val h) →
    ∀ c' rs, c.run ops = .ok (c', rs) → ∀ e ∈ c'.heap.list, StoredLast e.key e.val (h ++ ops.zip rs) := by
  have ext : ∀ (k : K) (v : V) (h : List (Op K V E × Option (Res V E))) (x : Op K V E × Option (Res V E)),
      StoredLast k v h → Quiet k x → StoredLast k v (h ++ [x]) := by
    rintro k v h x ⟨pre, post, now, size, r, rfl, hr, hq⟩ hx
    refine ⟨pre, post ++ [x], now, size, r, by simp, hr, ?_⟩
    intro y hy
    simp only [List.mem_append, List.mem_singleton] at hy
    rcases hy with hy | rfl
    · exact hq y hy
    · exact hx
  induction ops with
  | nil =>
    intro c h inv h0 hb _ hst c' rs hrun
    simp only [LRU.run, Except.ok.injEq, Prod.mk.injEq] at hrun
    obtain ⟨rfl, rfl⟩ := hrun
    simpa using hst
  | cons op ops ih =>
    intro c h inv h0 hb hv hst c' rs hrun
    cases op with
    | get now k o =>
      obtain ⟨c1, r, hg, inv1, hm1, hb1⟩ := get_inv c inv h0 hb now k o (hv _ (by simp))
      simp only [LRU.run] at hrun
      rw [hg] at hrun
      simp only [bind, Except.bind] at hrun
      cases hr2 : c1.run ops with
      | error p => rw [hr2] at hrun; cases hrun
      | ok p =>
        obtain ⟨c2, rs2⟩ := p
        rw [hr2] at hrun
        simp only [pure, Except.pure, Except.ok.injEq, Prod.mk.injEq] at hrun
        obtain ⟨rfl, rfl⟩ := hrun
        have hst1 : ∀ e ∈ c1.heap.list, StoredLast e.key e.val (h ++ [(Op.get now k o, some r)]) := by
          by_cases hk : ∃ e ∈ c.heap.list, e.key = k
          · obtain ⟨e, he, hek⟩ := hk
            rw [get_hit c inv now k o e he hek] at hg
            injection hg with hg
            injection hg with hg1 hg2
            subst hg1 hg2
            intro x hx
            exact ext _ _ _ _ (hst x hx) (fun _ => rfl)
          · have hk' : ∀ e ∈ c.heap.list, e.key ≠ k := fun e he hek => hk ⟨e, he, hek⟩
            have hidx := (index_none_iff c.heap inv.wf.index k).2 hk'
            have hold : ∀ x ∈ c.heap.list, StoredLast x.key x.val (h ++ [(Op.get now k o, some r)]) := by
              intro x hx
              exact ext _ _ _ _ (hst x hx) (fun heq => absurd heq.symm (hk' x hx))
            cases o with
            | fail v e =>
              unfold LRU.get at hg; rw [hidx] at hg
              simp only [Except.ok.injEq, Prod.mk.injEq] at hg
              obtain ⟨rfl, rfl⟩ := hg
              exact hold
            | ok v size =>
              have hvk := hv _ (List.mem_cons_self)
              simp only [Op.Valid] at hvk
              by_cases hs : size = 0
              · unfold LRU.get at hg; rw [hidx] at hg
                simp only at hg
                rw [if_pos hs] at hg
                simp only [Except.ok.injEq, Prod.mk.injEq] at hg
                obtain ⟨rfl, rfl⟩ := hg
                exact hold
              · obtain ⟨c1', ev, hg', _, _, _, hperm, _⟩ := get_miss (E := E) c inv h0 now hvk.1 k v size (by omega) hk'
                rw [hg'] at hg
                injection hg with hg
                injection hg with hg1 hg2
                subst hg1 hg2
                intro x hx
                have := hperm.mem_iff.2 (show x ∈ ev ++ c1'.heap.list by simp [hx])
                simp only [List.mem_cons] at this
                rcases this with rfl | hx'
                · exact ⟨h, [], now, size, _, rfl, rfl, by simp⟩
                · exact hold x hx'
        have := ih c1 _ inv1 (by omega) hb1 (fun op h => hv op (by simp [h])) hst1 c2 rs2 hr2
        simpa using this
    | inv k =>
      obtain ⟨c1, hg, inv1, hm1, hb1⟩ := invalidate_inv c inv hb k
      simp only [LRU.run] at hrun
      rw [hg] at hrun
      simp only [bind, Except.bind] at hrun
      cases hr2 : c1.run ops with
      | error p => rw [hr2] at hrun; cases hrun
      | ok p =>
        obtain ⟨c2, rs2⟩ := p
        rw [hr2] at hrun
        simp only [pure, Except.pure, Except.ok.injEq, Prod.mk.injEq] at hrun
        obtain ⟨rfl, rfl⟩ := hrun
        have hst1 : ∀ e ∈ c1.heap.list, StoredLast e.key e.val (h ++ [((Op.inv k : Op K V E), none)]) := by
          obtain ⟨c1', hg', _, _, hp⟩ := invalidate_spec c inv k
          rw [hg'] at hg; injection hg with hg; subst hg
          intro x hx
          have := hp.mem_iff.1 hx
          simp only [List.mem_filter, ne_eq, decide_not, Bool.not_eq_eq_eq_not, Bool.not_true, decide_eq_false_iff_not] at this
          exact ext _ _ _ _ (hst x this.1) (fun heq => this.2 heq.symm)
        have := ih c1 _ inv1 (by omega) hb1 (fun op h => hv op (by simp [h])) hst1 c2 rs2 hr2
        simpa using this

end Verif.Caches

import Verif.OMap.Spec
set_option autoImplicit false
set_option linter.unusedSectionVars false
namespace Verif.OMap

variable {K V : Type} [DecidableEq K]

/-- The live pairs of a slot list. -/
def live (l : List (Option (K × V))) : List (K × V) := l.filterMap id

/-- Index exactness: `byKey k = some i` iff slot `i` holds key `k`. -/
structure Rel (m : OrderedMap K V) (l : List (K × V)) : Prop where
  live : live m.list = l
  idx : ∀ k i, m.byKey k = some i ↔ ∃ v, m.list[i]? = some (some (k, v))

theorem rel_new : Rel (OrderedMap.new : OrderedMap K V) [] := by
  constructor <;> simp [OrderedMap.new, OMap.live]

theorem live_append (a b : List (Option (K × V))) : live (a ++ b) = live a ++ live b := by simp [live]

theorem aget_append_absent (a b : List (K × V)) (k : K) (h : ∀ p ∈ a, p.1 ≠ k) : aget (a ++ b) k = aget b k := by
  induction a with
  | nil => rfl
  | cons p a ih =>
    obtain ⟨k', v⟩ := p
    simp only [List.cons_append, aget]
    rw [if_neg (h (k', v) (by simp)), ih (fun p hp => h p (by simp [hp]))]

theorem aput_append_absent (a b : List (K × V)) (k : K) (v : V) (h : ∀ p ∈ a, p.1 ≠ k) : aput (a ++ b) k v = a ++ aput b k v := by
  induction a with
  | nil => rfl
  | cons p a ih =>
    obtain ⟨k', v'⟩ := p
    simp only [List.cons_append, aput]
    rw [if_neg (h (k', v') (by simp)), ih (fun p hp => h p (by simp [hp]))]

theorem aget_absent (a : List (K × V)) (k : K) (h : ∀ p ∈ a, p.1 ≠ k) : aget a k = none := by
  have := aget_append_absent a [] k h
  simpa [aget] using this

theorem aput_absent (a : List (K × V)) (k : K) (v : V) (h : ∀ p ∈ a, p.1 ≠ k) : aput a k v = a ++ [(k, v)] := by
  have := aput_append_absent a [] k v h
  simpa [aput] using this

theorem mem_live {l : List (Option (K × V))} {p : K × V} : p ∈ live l ↔ ∃ i : Nat, l[i]? = some (some p) := by
  simp only [live, List.mem_filterMap, id]
  constructor
  · rintro ⟨o, ho, rfl⟩
    exact List.mem_iff_getElem?.1 ho
  · rintro ⟨i, hi⟩
    exact ⟨some p, List.mem_iff_getElem?.2 ⟨i, hi⟩, rfl⟩

theorem absent {m : OrderedMap K V} {l : List (K × V)} (r : Rel m l) {k : K} (h : m.byKey k = none) : ∀ p ∈ l, p.1 ≠ k := by
  rintro ⟨k', v⟩ hp rfl
  rw [← r.live] at hp
  obtain ⟨i, hi⟩ := mem_live.1 hp
  have := (r.idx k' i).2 ⟨v, hi⟩
  rw [this] at h; cases h

/-- A present key splits the list at its slot. -/
theorem present {m : OrderedMap K V} {l : List (K × V)} (r : Rel m l) {k : K} {i : Nat} (h : m.byKey k = some i) :
    ∃ a v b, m.list = a ++ some (k, v) :: b ∧ a.length = i ∧ l = live a ++ (k, v) :: live b ∧
      (∀ p ∈ live a, p.1 ≠ k) ∧ (∀ p ∈ live b, p.1 ≠ k) := by
  obtain ⟨v, hv⟩ := (r.idx k i).1 h
  have hlt : i < m.list.length := (List.getElem?_eq_some_iff.1 hv).1
  have hsp : m.list = m.list.take i ++ some (k, v) :: m.list.drop (i + 1) := by
    have h1 := List.take_append_drop i m.list
    rw [List.drop_eq_getElem_cons hlt] at h1
    rw [(List.getElem?_eq_some_iff.1 hv).2] at h1
    exact h1.symm
  refine ⟨m.list.take i, v, m.list.drop (i + 1), hsp, by simp; omega, ?_, ?_, ?_⟩
  · rw [← r.live]
    conv => lhs; rw [hsp]
    rw [live_append]; simp [live]
  · rintro ⟨k', v'⟩ hp rfl
    obtain ⟨j, hj⟩ := mem_live.1 hp
    rw [List.getElem?_take] at hj
    split at hj
    · rename_i hji
      have := (r.idx k' j).2 ⟨v', hj⟩
      rw [h] at this; injection this with this; omega
    · cases hj
  · rintro ⟨k', v'⟩ hp rfl
    obtain ⟨j, hj⟩ := mem_live.1 hp
    rw [List.getElem?_drop] at hj
    have := (r.idx k' _).2 ⟨v', hj⟩
    rw [h] at this; injection this with this; omega

theorem at_present {m : OrderedMap K V} {a b : List (Option (K × V))} {p : K × V} {i : Nat} (h : m.list = a ++ some p :: b)
    (hi : a.length = i) : m.at i = .ok p := by
  have hg : m.list[i]? = some (some p) := by rw [h, ← hi]; simp
  obtain ⟨hlt, hge⟩ := List.getElem?_eq_some_iff.1 hg
  simp only [OrderedMap.at]
  rw [Go.idx_nat m.list i hlt, hge]
  rfl

theorem set_at {a b : List (Option (K × V))} {o o' : Option (K × V)} : (a ++ o :: b).set a.length o' = a ++ o' :: b := by
  simp

theorem get_spec {m : OrderedMap K V} {l : List (K × V)} (r : Rel m l) (k : K) : m.get k = .ok (aget l k) := by
  unfold OrderedMap.get
  cases h : m.byKey k with
  | none => simp only; rw [aget_absent l k (absent r h)]
  | some i =>
    obtain ⟨a, v, b, hl, hi, rfl, ha, hb⟩ := present r h
    simp only
    rw [at_present hl hi, aget_append_absent _ _ _ ha]
    simp [aget, bind, Except.bind, pure, Except.pure]

theorem put_spec {m : OrderedMap K V} {l : List (K × V)} (r : Rel m l) (k : K) (v : V) :
    ∃ m', m.put k v = .ok (m', aget l k) ∧ Rel m' (aput l k v) := by
  unfold OrderedMap.put
  cases h : m.byKey k with
  | none =>
    simp only
    refine ⟨_, by rw [aget_absent l k (absent r h)], ?_⟩
    rw [aput_absent l k v (absent r h)]
    constructor
    · rw [live_append, r.live]; rfl
    · intro k' i
      simp only
      split
      · rename_i hk; subst hk
        constructor
        · intro hi; injection hi with hi; subst hi; exact ⟨v, by simp⟩
        · rintro ⟨v', hv'⟩
          by_cases hlt : i < m.list.length
          · rw [List.getElem?_append_left hlt] at hv'
            have := (r.idx k' i).2 ⟨v', hv'⟩
            rw [h] at this; cases this
          · have hle : m.list.length ≤ i := by omega
            rw [List.getElem?_append_right hle] at hv'
            have : i - m.list.length < 1 := by
              have := (List.getElem?_eq_some_iff.1 hv').1; simpa using this
            congr 1; omega
      · rename_i hk
        rw [r.idx k' i]
        constructor
        · rintro ⟨v', hv'⟩
          exact ⟨v', by rw [List.getElem?_append_left (List.getElem?_eq_some_iff.1 hv').1]; exact hv'⟩
        · rintro ⟨v', hv'⟩
          by_cases hlt : i < m.list.length
          · rw [List.getElem?_append_left hlt] at hv'; exact ⟨v', hv'⟩
          · rw [List.getElem?_append_right (by omega)] at hv'
            have h1 : i - m.list.length < 1 := by
              have := (List.getElem?_eq_some_iff.1 hv').1; simpa using this
            have : i - m.list.length = 0 := by omega
            rw [this] at hv'
            simp at hv'
            exact absurd hv'.1.symm hk
  | some i =>
    obtain ⟨a, v0, b, hl, hi, rfl, ha, hb⟩ := present r h
    simp only
    rw [at_present hl hi]
    have hlt : i < m.list.length := by rw [hl]; simp; omega
    simp only [bind, Except.bind]
    rw [Go.set_nat m.list i _ hlt]
    refine ⟨_, by rw [aget_append_absent _ _ _ ha]; simp [aget, pure, Except.pure]; rfl, ?_⟩
    have hset : m.list.set i (some (k, v)) = a ++ some (k, v) :: b := by rw [hl, ← hi]; exact set_at
    constructor
    · simp only
      rw [hset, live_append, aput_append_absent _ _ _ _ ha]
      simp [live, aput]
    · intro k' j
      simp only
      rw [r.idx k' j]
      by_cases hij : i = j
      · subst hij
        rw [List.getElem?_set_self hlt]
        have hg : m.list[i]? = some (some (k, v0)) := by rw [hl, ← hi]; simp
        rw [hg]
        constructor
        · rintro ⟨v', hv'⟩; simp at hv'; exact ⟨v, by rw [hv'.1]⟩
        · rintro ⟨v', hv'⟩; simp at hv'; exact ⟨v0, by rw [hv'.1]⟩
      · rw [List.getElem?_set_ne hij]

theorem delete_spec {m : OrderedMap K V} {l : List (K × V)} (r : Rel m l) (k : K) :
    ∃ m', m.delete k = .ok (m', aget l k) ∧ Rel m' (adel l k) := by
  unfold OrderedMap.delete
  cases h : m.byKey k with
  | none =>
    simp only
    refine ⟨_, by rw [aget_absent l k (absent r h)], ?_⟩
    have : adel l k = l := by
      unfold adel; rw [List.filter_eq_self]; intro p hp; simpa using absent r h p hp
    rw [this]; exact r
  | some i =>
    obtain ⟨a, v0, b, hl, hi, rfl, ha, hb⟩ := present r h
    simp only
    rw [at_present hl hi]
    have hlt : i < m.list.length := by rw [hl]; simp; omega
    simp only [bind, Except.bind]
    rw [Go.set_nat m.list i _ hlt]
    refine ⟨_, by rw [aget_append_absent _ _ _ ha]; simp [aget, pure, Except.pure]; rfl, ?_⟩
    have hset : m.list.set i none = a ++ none :: b := by rw [hl, ← hi]; exact set_at
    have hg : m.list[i]? = some (some (k, v0)) := by rw [hl, ← hi]; simp
    constructor
    · simp only
      rw [hset, live_append]
      have h1 : adel (live a ++ (k, v0) :: live b) k = live a ++ live b := by
        unfold adel
        rw [List.filter_append]
        congr 1
        · rw [List.filter_eq_self]; intro p hp; simpa using ha p hp
        · rw [List.filter_cons_of_neg (by simp), List.filter_eq_self]; intro p hp; simpa using hb p hp
      rw [h1]; simp [live]
    · intro k' j
      simp only
      by_cases hk : k' = k
      · subst hk
        rw [if_pos rfl]
        constructor
        · intro h; cases h
        · rintro ⟨v', hv'⟩
          by_cases hij : i = j
          · subst hij; rw [List.getElem?_set_self hlt] at hv'; cases hv'
          · rw [List.getElem?_set_ne hij] at hv'
            have := (r.idx k' j).2 ⟨v', hv'⟩
            rw [h] at this; injection this with this; exact absurd this hij
      · rw [if_neg hk, r.idx k' j]
        by_cases hij : i = j
        · subst hij
          rw [List.getElem?_set_self hlt, hg]
          constructor
          · rintro ⟨v', hv'⟩; simp at hv'; exact absurd hv'.1.symm hk
          · rintro ⟨v', hv'⟩; cases hv'
        · rw [List.getElem?_set_ne hij]

theorem rangeLoop_live {σ E : Type} (f : σ → K → V → σ × Option E) (l : List (Option (K × V))) : ∀ s,
    rangeLoop f l s = rangeLoop f ((live l).map some) s := by
  induction l with
  | nil => intro s; rfl
  | cons o l ih =>
    intro s
    cases o with
    | none => simp only [rangeLoop, live, List.filterMap_cons, id]; exact ih s
    | some p =>
      obtain ⟨k, v⟩ := p
      simp only [rangeLoop, live, List.filterMap_cons, id, List.map_cons]
      rcases f s k v with ⟨s', _ | e⟩
      · exact ih s'
      · rfl

theorem range_nofail {σ : Type} (g : σ → K → V → σ) (l : List (K × V)) : ∀ s,
    rangeLoop (E := Unit) (fun s k v => (g s k v, none)) (l.map some) s = (l.foldl (fun s p => g s p.1 p.2) s, none) := by
  induction l with
  | nil => intro s; rfl
  | cons p l ih => intro s; obtain ⟨k, v⟩ := p; simp only [List.map_cons, rangeLoop, List.foldl_cons]; exact ih _

theorem len_spec {m : OrderedMap K V} {l : List (K × V)} (r : Rel m l) : m.len = l.length := by
  unfold OrderedMap.len OrderedMap.range
  rw [rangeLoop_live, r.live, range_nofail (fun n _ _ => n + 1)]
  have : ∀ (l : List (K × V)) n, l.foldl (fun s _ => s + 1) n = n + l.length := by
    intro l; induction l with
    | nil => intro n; rfl
    | cons p l ih => intro n; simp only [List.foldl_cons, ih, List.length_cons]; omega
  simp [this]

theorem keys_spec {m : OrderedMap K V} {l : List (K × V)} (r : Rel m l) : m.keys = l.map (·.1) := by
  unfold OrderedMap.keys OrderedMap.range
  rw [rangeLoop_live, r.live, range_nofail (fun l k _ => l ++ [k])]
  have : ∀ (l : List (K × V)) a, l.foldl (fun s p => s ++ [p.1]) a = a ++ l.map (·.1) := by
    intro l; induction l with
    | nil => intro n; simp
    | cons p l ih => intro n; simp only [List.foldl_cons, ih, List.map_cons, List.append_assoc, List.singleton_append]
  simp [this]

theorem values_spec {m : OrderedMap K V} {l : List (K × V)} (r : Rel m l) : m.values = l.map (·.2) := by
  unfold OrderedMap.values OrderedMap.range
  rw [rangeLoop_live, r.live, range_nofail (fun l _ v => l ++ [v])]
  have : ∀ (l : List (K × V)) a, l.foldl (fun s p => s ++ [p.2]) a = a ++ l.map (·.2) := by
    intro l; induction l with
    | nil => intro n; simp
    | cons p l ih => intro n; simp only [List.foldl_cons, ih, List.map_cons, List.append_assoc, List.singleton_append]
  simp [this]

theorem step_spec {m : OrderedMap K V} {l : List (K × V)} (r : Rel m l) (op : Op K V) :
    ∃ m', m.step op = .ok (m', (astep l op).2) ∧ Rel m' (astep l op).1 := by
  cases op with
  | get k => exact ⟨m, by simp only [OrderedMap.step, get_spec r]; rfl, r⟩
  | put k v =>
    obtain ⟨m', h, r'⟩ := put_spec r k v
    exact ⟨m', by simp only [OrderedMap.step, h]; rfl, r'⟩
  | delete k =>
    obtain ⟨m', h, r'⟩ := delete_spec r k
    exact ⟨m', by simp only [OrderedMap.step, h]; rfl, r'⟩
  | len => exact ⟨m, by simp only [OrderedMap.step, len_spec r]; rfl, r⟩
  | keys => exact ⟨m, by simp only [OrderedMap.step, keys_spec r]; rfl, r⟩
  | values => exact ⟨m, by simp only [OrderedMap.step, values_spec r]; rfl, r⟩

theorem run_spec (ops : List (Op K V)) : ∀ {m : OrderedMap K V} {l : List (K × V)}, Rel m l →
    ∃ m', m.run ops = .ok (m', (arun l ops).2) ∧ Rel m' (arun l ops).1 := by
  induction ops with
  | nil => intro m l r; exact ⟨m, rfl, r⟩
  | cons op ops ih =>
    intro m l r
    obtain ⟨m1, h1, r1⟩ := step_spec r op
    obtain ⟨m2, h2, r2⟩ := ih r1
    exact ⟨m2, by simp only [OrderedMap.run, h1, bind, Except.bind, h2]; rfl, r2⟩

end Verif.OMap

import Verif.OMap.Lemmas
/-!
# Properties of `OrderedMap` (C13, C14)
-/
set_option autoImplicit false
set_option linter.unusedSectionVars false
set_option linter.unusedSimpArgs false
namespace Verif.OMap

variable {K V : Type} [DecidableEq K]

/-- C13: every sequence of operations returns, without panicking, exactly what the association list returns. -/
theorem C13_refines_assoc_list (ops : List (Op K V)) :
    ∃ m, (OrderedMap.new : OrderedMap K V).run ops = .ok (m, (arun [] ops).2) := by
  obtain ⟨m, h, _⟩ := run_spec ops (rel_new (K := K) (V := V))
  exact ⟨m, h⟩

/-- What the association list does, in terms of lookups: independent of how `aput`/`adel` are written. -/
theorem C13_spec_lookup (l : List (K × V)) (k k' : K) (v : V) :
    aget (aput l k v) k' = (if k' = k then some v else aget l k') ∧
    aget (adel l k) k' = (if k' = k then none else aget l k') := by
  constructor
  · induction l with
    | nil => by_cases h : k = k' <;> simp [aput, aget, h, eq_comm]
    | cons p l ih =>
      obtain ⟨k0, v0⟩ := p
      simp only [aput]
      by_cases h0 : k0 = k
      · subst h0
        simp only [if_true, aget]
        by_cases h : k' = k0
        · simp [h]
        · have h' : k0 ≠ k' := fun e => h e.symm
          simp [h, h']
      · rw [if_neg h0]
        simp only [aget]
        by_cases h : k0 = k'
        · subst h; simp [h0]
        · simp only [if_neg h]; exact ih
  · induction l with
    | nil => simp [adel, aget]
    | cons p l ih =>
      obtain ⟨k0, v0⟩ := p
      by_cases h0 : k0 = k
      · subst h0
        have : adel ((k0, v0) :: l) k0 = adel l k0 := by simp [adel]
        rw [this, ih]
        simp only [aget]
        by_cases h : k' = k0
        · simp [h]
        · have h' : k0 ≠ k' := fun e => h e.symm
          simp [h, h']
      · have : adel ((k0, v0) :: l) k = (k0, v0) :: adel l k := by simp [adel, h0]
        rw [this]
        simp only [aget]
        by_cases h : k0 = k'
        · subst h; simp [h0]
        · simp only [if_neg h]; exact ih

/-- The order kept by the association list: updating keeps every position, adding goes to the end, deleting keeps the order
of the rest. -/
theorem C13_spec_order (l : List (K × V)) (k : K) (v : V) :
    (aput l k v).map (·.1) = (if k ∈ l.map (·.1) then l.map (·.1) else l.map (·.1) ++ [k]) ∧
    (adel l k).map (·.1) = (l.map (·.1)).filter (· ≠ k) := by
  constructor
  · induction l with
    | nil => simp [aput]
    | cons p l ih =>
      obtain ⟨k0, v0⟩ := p
      simp only [aput]
      by_cases h0 : k0 = k
      · subst h0; simp
      · have h0' : k ≠ k0 := fun e => h0 e.symm
        rw [if_neg h0]
        simp only [List.map_cons, ih, List.mem_cons, h0', false_or]
        split <;> simp
  · induction l with
    | nil => rfl
    | cons p l ih =>
      obtain ⟨k0, v0⟩ := p
      simp only [adel] at ih ⊢
      by_cases h0 : k0 = k <;> simp [h0]
      · simpa using ih
      · simpa using ih

/-- Keys never repeat in what a client sees. -/
theorem C13_keys_distinct (ops : List (Op K V)) : ((arun [] ops : List (K × V) × _).1.map (·.1)).Nodup := by
  have gen : ∀ (ops : List (Op K V)) (l : List (K × V)), (l.map (·.1)).Nodup → ((arun l ops).1.map (·.1)).Nodup := by
    intro ops
    induction ops with
    | nil => intro l h; exact h
    | cons op ops ih =>
      intro l h
      apply ih
      cases op with
      | put k v =>
        simp only [astep]
        rw [(C13_spec_order l k v).1]
        split
        · exact h
        · rename_i hk
          rw [List.nodup_append]
          refine ⟨h, by simp, ?_⟩
          intro a ha b hb
          simp only [List.mem_singleton] at hb
          rintro rfl
          exact hk (hb ▸ ha)
      | delete k =>
        have hd : (adel l k).map (·.1) = (l.map (·.1)).filter (· ≠ k) := by
          simp only [adel, List.filter_map]; rfl
        simp only [astep]
        rw [hd]
        exact h.filter _
      | _ => exact h
  exact gen ops [] (by simp)

/-- C14: on every reachable map, `Range` with any stateful callback calls it on the live pairs in insertion order: it either goes
through all of them without an error and returns nil, or there is a first failing pair, whose error is returned and after which
the callback is not called again. -/
theorem C14_range {σ E : Type} (ops : List (Op K V)) (m : OrderedMap K V) (rs : List (Ret K V))
    (hrun : (OrderedMap.new : OrderedMap K V).run ops = .ok (m, rs)) (f : σ → K → V → σ × Option E) (s : σ) :
    let pairs := (arun [] ops).1
    let after (ps : List (K × V)) : σ := ps.foldl (fun s p => (f s p.1 p.2).1) s
    let ok (ps : List (K × V)) : Prop := ∀ a p b, ps = a ++ p :: b → (f (after a) p.1 p.2).2 = none
    (ok pairs ∧ m.range f s = (after pairs, none)) ∨
    (∃ a p b e, pairs = a ++ p :: b ∧ ok a ∧ (f (after a) p.1 p.2).2 = some e ∧ m.range f s = (after (a ++ [p]), some e)) := by
  obtain ⟨m', h, r⟩ := run_spec ops (rel_new (K := K) (V := V))
  rw [hrun] at h
  injection h with h; injection h with h1 h2; subst h1
  simp only
  unfold OrderedMap.range
  rw [rangeLoop_live, r.live]
  generalize (arun [] ops).1 = l
  induction l generalizing s with
  | nil => left; exact ⟨by intro a p b h; simp at h, rfl⟩
  | cons q l ih =>
    obtain ⟨k, v⟩ := q
    simp only [List.map_cons, rangeLoop]
    cases hf : f s k v with
    | mk s' o =>
      cases o with
      | some e =>
        right
        exact ⟨[], (k, v), l, e, rfl, by intro a p b h; simp at h, by simp [hf], by simp [hf]⟩
      | none =>
        simp only
        rcases ih s' with ⟨hok, hr⟩ | ⟨a, p, b, e, hl, hok, he, hr⟩
        · left
          refine ⟨?_, by rw [hr]; simp [hf]⟩
          intro a p b h
          cases a with
          | nil => simp at h; obtain ⟨rfl, _⟩ := h; simp [hf]
          | cons x a =>
            simp at h; obtain ⟨rfl, h⟩ := h
            have := hok a p b h
            simpa [hf] using this
        · right
          refine ⟨(k, v) :: a, p, b, e, by rw [hl]; rfl, ?_, by simpa [hf] using he, by rw [hr]; simp [hf]⟩
          intro a' p' b' h
          cases a' with
          | nil => simp at h; obtain ⟨rfl, _⟩ := h; simp [hf]
          | cons x a' =>
            simp at h; obtain ⟨rfl, h⟩ := h
            have := hok a' p' b' h
            simpa [hf] using this

/-! ### concrete cases -/

/-- put three, update the first, delete the second, put it back: it moves to the end. -/
def sample : List (Op Nat String) :=
  [.put 1 "a", .put 2 "b", .put 3 "c", .put 1 "A", .delete 2, .get 2, .put 2 "B", .keys, .values, .len, .delete 9]

example : (OrderedMap.new.run sample).toOption.map (·.2) =
    some [.entry none, .entry none, .entry none, .entry (some "a"), .entry (some "b"), .entry none, .entry none,
      .keys [1, 3, 2], .values ["A", "c", "B"], .len 3, .entry none] := by decide

/-- `Range` failing on key 3: keys 1 and 3 were visited, key 2 was not. -/
example : (OrderedMap.new.run sample).toOption.map (fun p =>
    p.1.range (fun (s : List Nat) k _ => (s ++ [k], if k = 3 then some "stop" else none)) []) = some ([1, 3], some "stop") := by decide

end Verif.OMap

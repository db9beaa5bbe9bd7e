import Verif.Lists.Lemmas
/-!
# Properties of utils/lists (C09, C10, C12)
-/
namespace Verif.Lists

variable {α : Type}

/-! ## C09 -/

/-- C09: `Split` panics exactly when the limit is not positive. -/
theorem C09_split_panics_iff (inp : List α) (m : Int) :
    (∃ p, split inp m = .error p) ↔ m ≤ 0 := by
  constructor
  · intro ⟨p, hp⟩
    rcases Int.lt_or_le 0 m with hm | hm
    · exfalso
      obtain ⟨m, rfl⟩ := Int.eq_ofNat_of_zero_le (Int.le_of_lt hm)
      unfold split at hp
      rw [if_neg (by omega)] at hp
      split at hp
      · cases hp
      · rename_i hlen
        have hf := ceil_facts inp.length m (by omega) (by omega)
        simp only at hf
        have e1 : ((inp.length : Int) + m - 1) = ((inp.length + m - 1 : Nat) : Int) := by omega
        rw [e1, Int.tdiv_eq_ediv_of_nonneg (by omega), ← Int.natCast_ediv] at hp
        have e2 : ((inp.length : Int) + ((inp.length + m - 1) / m : Nat) - 1) =
            ((inp.length + (inp.length + m - 1) / m - 1 : Nat) : Int) := by omega
        simp only [Int.toNat_natCast] at hp
        rw [e2, Int.tdiv_eq_ediv_of_nonneg (by omega), ← Int.natCast_ediv] at hp
        rw [splitLoop_eq] at hp
        · cases hp
        · intro i hi
          rw [List.mem_range] at hi
          have : i ≤ (inp.length + m - 1) / m - 1 := by omega
          have := Nat.mul_le_mul_right ((inp.length + (inp.length + m - 1) / m - 1) / ((inp.length + m - 1) / m)) this
          omega
    · exact hm
  · intro h
    exact ⟨.explicit, by simp [split, h]⟩

example : (∃ p, split [1, 2] (-3) = .error p) ∧ ¬ ∃ p, split ([] : List Nat) 1 = .error p :=
  ⟨(C09_split_panics_iff _ _).2 (by decide), fun h => absurd ((C09_split_panics_iff _ _).1 h) (by decide)⟩

/-- C09: for a positive limit `Split` returns a partition, in order, into non-empty chunks within the limit, of
equal size except a possibly shorter last one, and no partition within the limit has fewer chunks. -/
theorem C09_split_spec (inp : List α) (m : Int) (hm : 0 < m) :
    ∃ out, split inp m = .ok out
      ∧ flatten out = inp
      ∧ (∀ c ∈ out, (c.length : Int) ≤ m)
      ∧ (inp ≠ [] → ∀ c ∈ out, c ≠ [])
      ∧ (inp = [] → out = [[]])
      ∧ (∃ k, (∀ c ∈ out.dropLast, c.length = k) ∧ (∀ c ∈ out, c.length ≤ k))
      ∧ (inp ≠ [] → ∀ parts : List (List α), parts.flatten = inp → (∀ c ∈ parts, (c.length : Int) ≤ m) →
          out.length ≤ parts.length) := by
  obtain ⟨m, rfl⟩ := Int.eq_ofNat_of_zero_le (Int.le_of_lt hm)
  have hm' : 0 < m := by omega
  by_cases hlen : inp.length ≤ m
  · refine ⟨[inp], ?_, ?_, ?_, ?_, ?_, ⟨inp.length, by simp, by simp⟩, ?_⟩
    · unfold split; rw [if_neg (by omega), if_pos (by omega)]
    · simp [flatten]
    · simp; omega
    · intro h c hc; simp at hc; rw [hc]; exact h
    · intro h; rw [h]
    · intro h parts hp _
      cases parts with
      | nil => simp at hp; exact absurd hp.symm (fun e => h e.symm)
      | cons a l => simp
  · have hf := ceil_facts inp.length m hm' (by omega)
    simp only at hf
    refine ⟨((List.range ((inp.length + m - 1) / m)).map fun i =>
        (inp.drop (i * ((inp.length + (inp.length + m - 1) / m - 1) / ((inp.length + m - 1) / m)))).take
          ((inp.length + (inp.length + m - 1) / m - 1) / ((inp.length + m - 1) / m))), ?_, ?_⟩
    · unfold split
      rw [if_neg (by omega), if_neg (by omega)]
      have e1 : ((inp.length : Int) + m - 1) = ((inp.length + m - 1 : Nat) : Int) := by omega
      rw [e1, Int.tdiv_eq_ediv_of_nonneg (by omega), ← Int.natCast_ediv]
      have e2 : ((inp.length : Int) + ((inp.length + m - 1) / m : Nat) - 1) =
            ((inp.length + (inp.length + m - 1) / m - 1 : Nat) : Int) := by omega
      simp only [Int.toNat_natCast]
      rw [e2, Int.tdiv_eq_ediv_of_nonneg (by omega), ← Int.natCast_ediv]
      rw [splitLoop_eq]
      intro i hi
      rw [List.mem_range] at hi
      have : i ≤ (inp.length + m - 1) / m - 1 := by omega
      have := Nat.mul_le_mul_right ((inp.length + (inp.length + m - 1) / m - 1) / ((inp.length + m - 1) / m)) this
      omega
    · generalize hb : (inp.length + m - 1) / m = b at hf ⊢
      generalize hc : (inp.length + b - 1) / b = c at hf ⊢
      obtain ⟨f1, f2, f3, f4, f5, f6⟩ := hf
      have hstart : ∀ i, i < b → i * c < inp.length := by
        intro i hi
        have : i ≤ b - 1 := by omega
        have := Nat.mul_le_mul_right c this
        omega
      refine ⟨?_, ?_, ?_, ?_, ?_, ?_⟩
      · rw [flatten_eq, chunks_flatten, List.take_of_length_le f4]
      · intro x hx
        simp only [List.mem_map, List.mem_range] at hx
        obtain ⟨i, hi, rfl⟩ := hx
        simp; omega
      · intro _ x hx
        simp only [List.mem_map, List.mem_range] at hx
        obtain ⟨i, hi, rfl⟩ := hx
        have := hstart i hi
        intro hnil
        have := congrArg List.length hnil
        simp at this; omega
      · intro h; rw [h] at hlen; simp at hlen
      · refine ⟨c, ?_, ?_⟩
        · obtain ⟨b', rfl⟩ : ∃ b', b = b' + 1 := ⟨b - 1, by omega⟩
          rw [List.range_succ, List.map_append]
          simp only [List.map_cons, List.map_nil, List.dropLast_concat]
          intro x hx
          simp only [List.mem_map, List.mem_range] at hx
          obtain ⟨i, hi, rfl⟩ := hx
          have : (i + 1) * c < inp.length := hstart (i + 1) (by omega)
          rw [Nat.succ_mul] at this
          simp; omega
        · intro x hx
          simp only [List.mem_map, List.mem_range] at hx
          obtain ⟨i, hi, rfl⟩ := hx
          simp; omega
      · intro _ parts hp hsz
        have h1 := length_le_of_parts m parts (fun c hc => by have := hsz c hc; omega)
        rw [hp] at h1
        simp only [List.length_map, List.length_range]
        rcases Nat.lt_or_ge parts.length b with hlt | hge
        · exfalso
          have : parts.length ≤ b - 1 := by omega
          have := Nat.mul_le_mul_right m this
          omega
        · exact hge

example : split [1,2,3,4,5,6,7] 3 = .ok [[1,2,3],[4,5,6],[7]] := by rfl
example : split [1,2,3,4,5] 4 = .ok [[1,2,3],[4,5]] := by rfl
example : split [1,2] 0 = .error .explicit := by rfl

/-! ## C10 -/

/-- C10: `Reverse` never panics and leaves the elements in reverse order. -/
theorem C10_reverse (a : List α) : reverse a = .ok a.reverse := by
  have := reverseLoop_spec a a.length 0 a rfl (by omega) (by omega) (by intros; omega) (by intros; omega) (by intros; rfl)
  simpa [reverse] using this

/-- C10: reversing twice restores the slice. -/
theorem C10_reverse_involutive (a : List α) : (reverse a >>= reverse) = .ok a := by
  rw [C10_reverse]
  show reverse a.reverse = _
  rw [C10_reverse, List.reverse_reverse]

example : reverse [1,2,3,4] = .ok [4,3,2,1] := by rfl
example : reverse [1,2,3,4,5] = .ok [5,4,3,2,1] := by rfl

/-! ## C12 -/

/-- C12: `Contains` is membership. -/
theorem C12_contains [DecidableEq α] (a : List α) (i : α) : contains a i = true ↔ ∃ p : Nat, a[p]? = some i := by
  rw [contains_iff, List.mem_iff_getElem?]

example : contains [3, 1, 2] 2 = true ∧ contains [3, 1, 2] 4 = false := by decide

/-- C12: `AddUnique` changes nothing when the element is there, and appends it once otherwise; it keeps the
slice free of duplicates. -/
theorem C12_addUnique [DecidableEq α] (a : List α) (i : α) :
    (i ∈ a → addUnique a i = a) ∧ (i ∉ a → addUnique a i = a ++ [i])
      ∧ (∀ x, x ∈ addUnique a i ↔ x ∈ a ∨ x = i) ∧ (a.Nodup → (addUnique a i).Nodup) := by
  have h1 : i ∈ a → addUnique a i = a := by
    intro h; unfold addUnique; rw [if_pos ((contains_iff a i).2 h)]
  have h2 : i ∉ a → addUnique a i = a ++ [i] := by
    intro h; unfold addUnique; rw [if_neg (fun hc => h ((contains_iff a i).1 hc))]
  refine ⟨h1, h2, ?_, ?_⟩
  · intro x
    by_cases h : i ∈ a
    · rw [h1 h]
      constructor
      · exact Or.inl
      · rintro (h' | rfl)
        · exact h'
        · exact h
    · rw [h2 h]; simp
  · intro hn
    by_cases h : i ∈ a
    · rw [h1 h]; exact hn
    · rw [h2 h, List.nodup_append]
      refine ⟨hn, by simp, ?_⟩
      intro x hx y hy
      simp at hy
      intro hxy
      rw [hxy, hy] at hx; exact h hx

example : addUnique [3, 1] 1 = [3, 1] ∧ addUnique [3, 1] 2 = [3, 1, 2] := by decide

/-- C12: any sequence of `Add`, `Remove` and `Has` on a new `Set` returns what a mathematical set would, and
`All` then lists each member exactly once. -/
theorem C12_set [DecidableEq α] (ops : List (SetOp α)) :
    ((Set.empty : Set α).run ops).2 = (specRun (fun _ => false) ops).2
      ∧ ((Set.empty : Set α).run ops).1.all.Nodup
      ∧ ∀ x, x ∈ ((Set.empty : Set α).run ops).1.all ↔ (specRun (fun _ => false) ops).1 x = true := by
  have := set_run_spec ops (Set.empty : Set α) (fun _ => false) (by simp [Set.empty]) (by simp [Set.empty])
  refine ⟨this.1, this.2.1, ?_⟩
  intro x
  rw [this.2.2 x]
  simp [Set.all]

example : ((Set.empty : Set Nat).run [.add 1, .add 1, .has 1, .remove 1, .remove 1, .add 2]).2
    = [true, false, true, true, false, true] := by decide

end Verif.Lists

import Verif.Lists.PermLemmas
/-!
# `lists.Permute` enumerates every permutation exactly once (C11)
-/
set_option autoImplicit false
namespace Verif.Lists

variable {α : Type}

/-- C11: for every slice `l` of any length `n` there is a list `arr` of `n!` position permutations, pairwise distinct, containing
every permutation of the positions, starting with the identity, in which neighbours differ by one adjacent exchange, such that
for every number `N` of calls the generator never panics, call number `i < n!` returns true leaving the slice arranged as `arr[i]`,
and every later call returns false leaving the slice as it was after the last arrangement. -/
theorem C11_permute (l : List α) :
    ∃ (arr : List (List Nat)) (last : List Nat), arr.length = fact l.length ∧ arr.Nodup ∧
      (∀ π, π ∈ arr ↔ π.Perm (List.range l.length)) ∧ arr.head? = some (List.range l.length) ∧ arr.getLast? = some last ∧
      (∀ (i : Nat) a b, arr[i]? = some a → arr[i + 1]? = some b → AdjSwap a b) ∧
      ∀ N, (Closure.new l).calls N =
        .ok ((arr.map (fun π => (true, arrange l π)) ++ List.replicate N (false, arrange l last)).take N) := by
  obtain ⟨r, hr⟩ := states_head l.length
  have hrun := states_run l.length
  have hperm := states_perm l.length
  have hlt := states_lt l.length
  have hcover := states_cover l.length
  have hcount := states_count l.length
  have hnd := states_nodup l.length
  generalize hS : states l.length = S at *
  subst hr
  refine ⟨((List.range l.length).map L :: r).map origs, origs (((List.range l.length).map L :: r).getLast (by simp)), by simpa using hcount, hnd,
    ?_, by simp [origs, Function.comp_def, L], ?_, ?_, ?_⟩
  · intro π
    constructor
    · intro h; obtain ⟨e, he, rfl⟩ := List.mem_map.1 h; exact hperm e he
    · exact hcover π
  · rw [List.getLast?_map, List.getLast?_eq_some_getLast (by simp)]; rfl
  · intro i a b ha hb
    rw [List.getElem?_map] at ha hb
    obtain ⟨a', ha', rfl⟩ := Option.map_eq_some_iff.1 ha
    obtain ⟨b', hb', rfl⟩ := Option.map_eq_some_iff.1 hb
    exact next_origs (run_adj _ hrun i a' b' ha' hb')
  · intro N
    cases N with
    | zero => rfl
    | succ N =>
      have hinit : (Closure.new l).gen = PermGen.mk (arrange l (origs ((List.range l.length).map L))) ((List.range l.length).map L) := by
        have h1 : origs ((List.range l.length).map L) = List.range l.length := by simp [origs, L, Function.comp_def]
        rw [h1, arrange_range]; rfl
      have h0 := calls_run l N r _ hrun (fun s hs => ⟨(hperm s hs).nodup_iff.2 List.nodup_range, fun el hel => hlt s hs el hel⟩)
      simp only [Closure.calls, Closure.call]
      have hf : (Closure.new l).first = true := rfl
      simp only [hf, if_true, bind, Except.bind, hinit, h0, pure, Except.pure, List.map_cons, List.cons_append, List.take_succ_cons,
        Function.comp_def, List.map_map]
      congr 2
      rw [List.replicate_succ', ← List.append_assoc, List.take_append (l₁ := _ ++ _)]
      simp

/-- The arrangement function is what it says: position by position. -/
theorem C11_arrange_spec (l : List α) (π : List Nat) (h : π.Perm (List.range l.length)) :
    (arrange l π).map some = π.map (fun i => l[i]?) ∧ (arrange l π).Perm l := by
  refine ⟨arrange_map l π (fun i hi => by have := h.mem_iff.1 hi; simpa using this), ?_⟩
  have : (arrange l π).Perm (arrange l (List.range l.length)) := h.filterMap _
  rwa [arrange_range] at this

/-- The six arrangements of three elements, then false. -/
example : ((Closure.new ["a", "b", "c"]).calls 8).toOption =
    some [(true, ["a", "b", "c"]), (true, ["a", "c", "b"]), (true, ["c", "a", "b"]), (true, ["c", "b", "a"]), (true, ["b", "c", "a"]),
      (true, ["b", "a", "c"]), (false, ["b", "a", "c"]), (false, ["b", "a", "c"])] := by decide

end Verif.Lists

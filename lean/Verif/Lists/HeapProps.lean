import Verif.Lists.Heap
/-!
# C135: slices that are handed out are not changed by others
-/
set_option autoImplicit false
namespace Verif.Lists.Heap

section
variable {α : Type}

/-- A slice with an array of its own, not there before: what is done with it is not seen by others, and the other way round. -/
theorem fresh_apart (grow : Nat → Nat) (z : α) (h h' : Heap α) (s : Slice) (hs : s.cap = 0 ∨ h.length ≤ s.arr) (ws : WF h' s)
    (hold : ∀ t, WF h t → read h' t = read h t ∧ WF h' t) (t : Slice) (wt : WF h t) (us : List (Use α)) :
    read (uses grow z h' s us).1 t = read h t ∧ read (uses grow z h' t us).1 s = read h' s := by
  have ha : Apart s t := by
    rcases Nat.eq_zero_or_pos t.cap with hc | hc
    · exact Or.inr (Or.inl hc)
    · rcases hs with hs | hs
      · exact Or.inl hs
      · have := (wt.2 hc).1
        exact Or.inr (Or.inr (by omega))
  obtain ⟨h1, h2⟩ := hold t wt
  exact ⟨by rw [uses_apart grow z us h' s t ws h2 ha, h1], uses_apart grow z us h' t s h2 ws (apart_symm _ _ ha)⟩

/-- C135: a copy holds what the slice held; whatever is done with it later (assignments, appends, slicing), no slice there was before sees it, and the copy does not see what is done with them. -/
theorem C135_copy (grow : Nat → Nat) (z : α) (h : Heap α) (a : Slice) (wa : WF h a) :
    read (copy h a).1 (copy h a).2 = read h a ∧
    ∀ t, WF h t → read (copy h a).1 t = read h t ∧
      ∀ us : List (Use α), read (uses grow z (copy h a).1 (copy h a).2 us).1 t = read h t ∧ read (uses grow z (copy h a).1 t us).1 (copy h a).2 = read h a := by
  have hlen := read_length h a wa
  have hold : ∀ t, WF h t → read (copy h a).1 t = read h t ∧ WF (copy h a).1 t :=
    fun t wt => read_same h _ t wt (by simp [copy]) (fun hc => getD_append_left _ _ _ (wt.2 hc).1)
  have hr : read (copy h a).1 (copy h a).2 = read h a := by
    show List.take a.len (List.drop 0 ((h ++ [read h a]).getD h.length [])) = read h a
    rw [getD_append_new, List.drop_zero, List.take_of_length_le (by omega)]
  have ws : WF (copy h a).1 (copy h a).2 := by
    refine ⟨Nat.le_refl _, fun _ => ⟨by simp [copy], ?_⟩⟩
    show 0 + a.len ≤ ((h ++ [read h a]).getD h.length []).length
    rw [getD_append_new]
    omega
  refine ⟨hr, fun t wt => ⟨(hold t wt).1, fun us => ?_⟩⟩
  have := fresh_apart grow z h _ (copy h a).2 (Or.inr (Nat.le_refl _)) ws hold t wt us
  rw [hr] at this
  exact this

theorem flattenLoop_spec (grow : Nat → Nat) (z : α) (h0 : Heap α) : ∀ (gs : List Slice) (h : Heap α) (out : Slice), (∀ g ∈ gs, WF h0 g) →
    (∀ t, WF h0 t → read h t = read h0 t ∧ WF h t) → WF h out → (out.cap = 0 ∨ h0.length ≤ out.arr) → h0.length ≤ h.length →
    read (flattenLoop grow z gs h out).1 (flattenLoop grow z gs h out).2 = read h out ++ (gs.map (read h0)).flatten ∧
    (∀ t, WF h0 t → read (flattenLoop grow z gs h out).1 t = read h0 t ∧ WF (flattenLoop grow z gs h out).1 t) ∧
    WF (flattenLoop grow z gs h out).1 (flattenLoop grow z gs h out).2 ∧
    ((flattenLoop grow z gs h out).2.cap = 0 ∨ h0.length ≤ (flattenLoop grow z gs h out).2.arr)
  | [], h, out, _, hold, wo, hf, _ => ⟨by simp [flattenLoop], hold, wo, hf⟩
  | g :: gs, h, out, hg, hold, wo, hf, hl => by
    simp only [flattenLoop]
    obtain ⟨a1, a2, a3, -, -⟩ := append_spec grow z h out (read h g) wo
    have hold' : ∀ t, WF h0 t → read (append grow z h out (read h g)).1 t = read h0 t ∧ WF (append grow z h out (read h g)).1 t := by
      intro t wt
      have ha : Apart out t := by
        rcases Nat.eq_zero_or_pos t.cap with hc | hc
        · exact Or.inr (Or.inl hc)
        · rcases hf with hf | hf
          · exact Or.inl hf
          · have := (wt.2 hc).1
            exact Or.inr (Or.inr (by omega))
      obtain ⟨k1, k2, -, -⟩ := use_apart grow z h out t (.app (read h g)) wo (hold t wt).2 ha
      exact ⟨by rw [← (hold t wt).1]; exact k1, k2⟩
    have hf' : (append grow z h out (read h g)).2.cap = 0 ∨ h0.length ≤ (append grow z h out (read h g)).2.arr := by
      unfold append
      split
      · exact hf
      · exact Or.inr hl
    obtain ⟨b1, b2, b3, b4⟩ := flattenLoop_spec grow z h0 gs _ _ (fun x hx => hg x (List.mem_cons_of_mem _ hx)) hold' a2 hf' (Nat.le_trans hl a3)
    refine ⟨?_, b2, b3, b4⟩
    rw [b1, a1, (hold g (hg g List.mem_cons_self)).1]
    simp

/-- C135: `Flatten` gives a slice of its own with the elements of all groups, whatever they share. -/
theorem C135_flatten (grow : Nat → Nat) (z : α) (h : Heap α) (gs : List Slice) (wg : ∀ g ∈ gs, WF h g) :
    read (flatten grow z h gs).1 (flatten grow z h gs).2 = (gs.map (read h)).flatten ∧
    ∀ t, WF h t → read (flatten grow z h gs).1 t = read h t ∧
      ∀ us : List (Use α), read (uses grow z (flatten grow z h gs).1 (flatten grow z h gs).2 us).1 t = read h t ∧
        read (uses grow z (flatten grow z h gs).1 t us).1 (flatten grow z h gs).2 = (gs.map (read h)).flatten := by
  obtain ⟨b1, b2, b3, b4⟩ := flattenLoop_spec grow z h gs h {} wg (fun t wt => ⟨rfl, wt⟩) ⟨Nat.le_refl _, fun hc => absurd hc (by simp)⟩ (Or.inl rfl) (Nat.le_refl _)
  have h0 : read h ({} : Slice) = [] := by simp [read]
  rw [h0, List.nil_append] at b1
  refine ⟨b1, fun t wt => ⟨(b2 t wt).1, fun us => ?_⟩⟩
  have := fresh_apart grow z h _ (flatten grow z h gs).2 b4 b3 b2 t wt us
  exact ⟨this.1, this.2.trans b1⟩

/-- The second slice lies inside the first; writing to the result leaves both. -/
example : let r := flatten (fun n => n) 0 [[1, 2, 3, 4]] [{ arr := 0, off := 0, len := 3, cap := 4 }, { arr := 0, off := 1, len := 2, cap := 3 }]
    (read r.1 r.2, (use (fun n => n) 0 r.1 r.2 (.set 0 7)).1.getD 0 []) = ([1, 2, 3, 2, 3], [1, 2, 3, 4]) := by decide

/-- C135: `AddUnique` gives what it should (C12); the slice it was given, and slices that have no array in common with it, are as before. -/
theorem C135_addUnique_partial [DecidableEq α] (grow : Nat → Nat) (z : α) (h : Heap α) (a : Slice) (i : α) (wa : WF h a) :
    read (addUnique grow z h a i).1 (addUnique grow z h a i).2 = Lists.addUnique (read h a) i ∧ read (addUnique grow z h a i).1 a = read h a ∧
    ∀ t, WF h t → Apart a t → read (addUnique grow z h a i).1 t = read h t := by
  unfold addUnique Lists.addUnique
  split
  · exact ⟨rfl, rfl, fun _ _ _ => rfl⟩
  · obtain ⟨a1, -, -, a4, -⟩ := append_spec grow z h a [i] wa
    exact ⟨a1, a4, fun t wt ha => (use_apart grow z h a t (.app [i]) wa wt ha).1⟩

example : let r := addUnique (fun n => n) 0 [[1, 2, 3, 4]] { arr := 0, off := 0, len := 2, cap := 2 } 9
    (read r.1 r.2, r.1.getD 0 []) = ([1, 2, 9], [1, 2, 3, 4]) := by decide

/-- C135 fails: two results of `AddUnique` on one slice with room left are one: the first becomes the second. -/
theorem C135_addUnique_violated (grow : Nat → Nat) (z : Nat) : ∃ (h : Heap Nat) (a : Slice), WF h a ∧ read h a = [1] ∧
    read (addUnique grow z h a 2).1 (addUnique grow z h a 2).2 = [1, 2] ∧
    read (addUnique grow z (addUnique grow z h a 2).1 a 3).1 (addUnique grow z h a 2).2 = [1, 3] := by
  refine ⟨[[1, 0]], { arr := 0, off := 0, len := 1, cap := 2 }, ⟨by decide, fun _ => by decide⟩, ?_, ?_, ?_⟩ <;> rfl

/-! ### Split -/

theorem sub_ok (h : Heap α) (s : Slice) (w : WF h s) (i j : Int) (h0 : 0 ≤ i) (hij : i ≤ j) (hj : j ≤ s.len) :
    ∃ c, sub s i j = .ok c ∧ Go.slice (read h s) i j = .ok (read h c) ∧ c.arr = s.arr ∧ c.off = s.off + i.toNat ∧ c.len = (j - i).toNat ∧ c.cap = s.cap - i.toNat := by
  have hl := read_length h s w
  have := w.1
  refine ⟨{ arr := s.arr, off := s.off + i.toNat, len := (j - i).toNat, cap := s.cap - i.toNat }, ?_, ?_, rfl, rfl, rfl, rfl⟩
  · unfold sub
    rw [if_pos ⟨h0, hij, by omega⟩]
  · unfold Go.slice
    rw [if_pos ⟨h0, hij, by omega⟩]
    simp only [read]
    rw [List.take_take, ← List.drop_drop, List.drop_take]
    congr 2
    have : min j.toNat s.len = j.toNat := by omega
    rw [this]
    have : (j - i).toNat = j.toNat - i.toNat := by omega
    rw [this]

/-- A chunk is a window on the input. -/
def Window (s c : Slice) : Prop := c.arr = s.arr ∧ ∃ k, c.off = s.off + k ∧ k + c.len ≤ s.len ∧ c.cap = s.cap - k

theorem splitLoop_spec (h : Heap α) (s : Slice) (w : WF h s) (cs : Int) (hcs : 0 ≤ cs) : ∀ is : List Nat,
    (∀ out, splitLoop s cs is = .ok out → Lists.splitLoop (read h s) cs is = .ok (out.map (read h)) ∧ ∀ c ∈ out, Window s c) ∧
    (∀ lo, Lists.splitLoop (read h s) cs is = .ok lo → ∃ out, splitLoop s cs is = .ok out)
  | [] => by
    constructor
    · intro out ho
      simp only [splitLoop, Except.ok.injEq] at ho
      subst ho
      exact ⟨rfl, by simp⟩
    · intro lo _
      exact ⟨[], rfl⟩
  | i :: is => by
    obtain ⟨ih1, ih2⟩ := splitLoop_spec h s w cs hcs is
    have hl := read_length h s w
    have hst : 0 ≤ (i : Int) * cs := Int.mul_nonneg (by omega) hcs
    simp only [splitLoop, Lists.splitLoop, hl, bind, Except.bind, pure, Except.pure]
    generalize hstop : (if (i : Int) * cs + cs > s.len then (s.len : Int) else (i : Int) * cs + cs) = stop
    have hle : stop ≤ s.len := by split at hstop <;> omega
    by_cases hb : (i : Int) * cs ≤ stop
    · obtain ⟨c, c1, c2, c3, c4, c5, c6⟩ := sub_ok h s w _ stop hst hb hle
      have hw : Window s c := ⟨c3, _, c4, by rw [c5]; omega, c6⟩
      rw [c1, c2]
      simp only
      constructor
      · intro out ho
        split at ho
        · cases ho
        · rename_i rest hrest
          cases ho
          obtain ⟨k1, k2⟩ := ih1 rest hrest
          rw [k1]
          refine ⟨by simp, ?_⟩
          intro x hx
          rcases List.mem_cons.1 hx with rfl | hx
          · exact hw
          · exact k2 x hx
      · intro lo hlo
        split at hlo
        · cases hlo
        · rename_i rest hrest
          obtain ⟨out, hout⟩ := ih2 rest hrest
          rw [hout]
          exact ⟨_, rfl⟩
    · have hn : sub s ((i : Int) * cs) stop = .error .slice := by unfold sub; rw [if_neg (by omega)]
      have hn2 : Go.slice (read h s) ((i : Int) * cs) stop = .error .slice := by unfold Go.slice; rw [if_neg (by omega)]
      rw [hn, hn2]
      constructor
      · intro out ho; cases ho
      · intro lo hlo; cases hlo

/-- C135: the chunks of `Split` hold what C09 says, and are windows on the input: assigning to one of them is assigning to the input. -/
theorem C135_split_partial (grow : Nat → Nat) (z : α) (h : Heap α) (s : Slice) (w : WF h s) (m : Int) (hm : 0 < m) :
    ∃ out, split s m = .ok out ∧ Lists.split (read h s) m = .ok (out.map (read h)) ∧
      ∀ c ∈ out, ∃ k, ∀ i x, i < c.len →
        k + i < s.len ∧ read (use grow z h c (.set i x)).1 c = (read h c).set i x ∧ read (use grow z h c (.set i x)).1 s = (read h s).set (k + i) x := by
  have hl := read_length h s w
  have key : ∃ out, split s m = .ok out ∧ Lists.split (read h s) m = .ok (out.map (read h)) ∧ ∀ c ∈ out, Window s c := by
    obtain ⟨lo, hlo, -⟩ := C09_split_spec (read h s) m hm
    unfold split Lists.split at *
    rw [if_neg (by omega)] at hlo
    have hm0 : ¬ m ≤ 0 := by omega
    simp only [if_neg hm0]
    rw [hl] at hlo ⊢
    split at hlo
    · rename_i hle
      rw [if_pos hle, if_pos hle]
      refine ⟨[s], rfl, rfl, ?_⟩
      intro c hc
      rw [List.mem_singleton] at hc
      subst hc
      exact ⟨rfl, 0, rfl, by omega, rfl⟩
    · rename_i hgt
      rw [if_neg hgt, if_neg hgt]
      have hcs : 0 ≤ ((s.len : Int) + ((s.len : Int) + m - 1).tdiv m - 1).tdiv (((s.len : Int) + m - 1).tdiv m) := by
        have h1 : 0 ≤ ((s.len : Int) + m - 1).tdiv m := Int.tdiv_nonneg (by omega) (by omega)
        have h2 : 1 ≤ ((s.len : Int) + m - 1).tdiv m := by
          rw [Int.tdiv_eq_ediv_of_nonneg (by omega)]
          exact (Int.le_ediv_iff_mul_le hm).2 (by omega)
        exact Int.tdiv_nonneg (by omega) (by omega)
      obtain ⟨k1, k2⟩ := splitLoop_spec h s w _ hcs (List.range (((s.len : Int) + m - 1).tdiv m).toNat)
      obtain ⟨out, hout⟩ := k2 lo hlo
      obtain ⟨k3, k4⟩ := k1 out hout
      exact ⟨out, hout, k3, k4⟩
  obtain ⟨out, h1, h2, h3⟩ := key
  refine ⟨out, h1, h2, fun c hc => ?_⟩
  obtain ⟨w1, k, w2, w3, w4⟩ := h3 c hc
  refine ⟨k, fun i x hi => ?_⟩
  have hcap : 0 < s.cap := by have := w.1; omega
  obtain ⟨v1, v2⟩ := w.2 hcap
  have := w.1
  have hov : ∀ (l : List α) (p n : Nat) (x : α), n ≤ p → p < l.length → ∀ len, p - n < len → ((overlay l p [x]).drop n).take len = ((l.drop n).take len).set (p - n) x := by
    intro l p n x hp hl len hlen
    apply List.ext_getElem?
    intro q
    simp only [overlay, List.getElem?_take, List.getElem?_drop, List.getElem?_append, List.getElem?_set, List.length_take, List.length_append, List.length_singleton, List.length_drop]
    have e : min p l.length = p := by omega
    rw [e]
    by_cases hq : q < len
    · simp only [hq, if_true, ↓reduceIte]
      by_cases hqp : p - n = q
      · have k1 : n + q = p := by omega
        have k2 : q < min len (l.length - n) := by omega
        subst hqp
        simp only [k1, k2, Nat.lt_irrefl, if_false, ↓reduceIte, Nat.sub_self]
        rw [if_pos (by omega)]
        simp
      · simp only [hqp, ↓reduceIte]
        by_cases hlt : n + q < p
        · rw [if_pos (by omega), if_pos hlt, if_pos hlt]
        · rw [if_neg (by omega)]
          congr 1
          omega
    · simp only [hq, ↓reduceIte]
      rw [if_neg (by omega)]
  refine ⟨by omega, ?_, ?_⟩
  · simp only [use, if_pos hi, read, w1]
    rw [getD_set_eq _ _ _ v1]
    have := hov (h.getD s.arr []) (c.off + i) c.off x (by omega) (by omega) c.len (by omega)
    rw [this]
    congr 1
    omega
  · simp only [use, if_pos hi, read, w1]
    rw [getD_set_eq _ _ _ v1]
    have := hov (h.getD s.arr []) (c.off + i) s.off x (by omega) (by omega) s.len (by omega)
    rw [this]
    congr 1
    omega

example : ((split { arr := 0, off := 0, len := 5, cap := 5 } 2).toOption.map fun l => l.map (read [[1, 2, 3, 4, 5]])) = some [[1, 2], [3, 4], [5]] := by decide

/-- C135 fails: a chunk has the rest of the input as its capacity, so appending to it overwrites the next chunk. -/
theorem C135_split_violated (grow : Nat → Nat) (z : Nat) : ∃ (h : Heap Nat) (s c d : Slice), WF h s ∧ read h s = [1, 2, 3, 4] ∧ split s 2 = .ok [c, d] ∧
    read h d = [3, 4] ∧ read (use grow z h c (.app [9])).1 d = [9, 4] ∧ read (use grow z h c (.app [9])).1 s = [1, 2, 9, 4] := by
  refine ⟨[[1, 2, 3, 4]], { arr := 0, off := 0, len := 4, cap := 4 }, { arr := 0, off := 0, len := 2, cap := 4 }, { arr := 0, off := 2, len := 2, cap := 2 },
    ⟨by decide, fun _ => by decide⟩, rfl, rfl, rfl, ?_, ?_⟩ <;> rfl

/-- A copy of a window, then an assignment and an append to the copy: the array is as it was. -/
example : let r := copy [[1, 2, 3, 4]] { arr := 0, off := 1, len := 2, cap := 3 }
    let q := uses (fun n => n) 0 r.1 r.2 [.set 0 7, .app [8, 9]]
    (read q.1 q.2, q.1.getD 0 []) = ([7, 3, 8, 9], [1, 2, 3, 4]) := by decide

end
end Verif.Lists.Heap

import Verif.Lists.Props
/-!
# Slices that share arrays: `Copy`, `AddUnique`, `Split` and `Flatten` (/repo/utils/lists/lists.go, group.go)

A slice is a window on an array, with a capacity. The other models of `utils/lists` are about what slices hold; this one is about what they hold after others were used.
`grow` is how much larger than needed `append` makes a new array (`runtime.growslice`), any function; `z` is the zero value in cells not used yet.
-/
set_option autoImplicit false
namespace Verif.Lists.Heap

/-- All arrays. For utils/lists/lists.go L12-24, group.go L3-33. -/
abbrev Heap (α : Type) := List (List α)

/-- A slice: its array, where it begins, its length and its capacity. The nil slice has capacity 0. For utils/lists/lists.go L12-24. -/
structure Slice where
  arr : Nat := 0
  off : Nat := 0
  len : Nat := 0
  cap : Nat := 0
deriving DecidableEq

section
variable {α : Type}

/-- What a slice holds now. -/
def read (h : Heap α) (s : Slice) : List α := ((h.getD s.arr []).drop s.off).take s.len

/-- Cells replaced from position `p` on. -/
def overlay (l : List α) (p : Nat) (xs : List α) : List α := l.take p ++ xs ++ l.drop (p + xs.length)

/-- `append(s, xs...)`: in place if there is room, else in a new array. Go: `append`; used in utils/lists/lists.go L16, group.go L30. -/
def append (grow : Nat → Nat) (z : α) (h : Heap α) (s : Slice) (xs : List α) : Heap α × Slice :=
  if s.len + xs.length ≤ s.cap then
    (h.set s.arr (overlay (h.getD s.arr []) (s.off + s.len) xs), { s with len := s.len + xs.length })
  else
    (h ++ [read h s ++ xs ++ List.replicate (grow s.cap) z], { arr := h.length, off := 0, len := s.len + xs.length, cap := s.len + xs.length + grow s.cap })

/-- `s[i:j]`: the capacity reaches to the end of that of `s`. Panics unless `i ≤ j ≤ cap`. Used in utils/lists/group.go L21. -/
def sub (s : Slice) (i j : Int) : Go Slice :=
  if 0 ≤ i ∧ i ≤ j ∧ j ≤ s.cap then .ok { arr := s.arr, off := s.off + i.toNat, len := (j - i).toNat, cap := s.cap - i.toNat } else .error .slice

/-- utils/lists/lists.go L19-23 `Copy`: `make` gives a new array. -/
def copy (h : Heap α) (a : Slice) : Heap α × Slice :=
  (h ++ [read h a], { arr := h.length, off := 0, len := a.len, cap := a.len })

/-- utils/lists/lists.go L12-17 `AddUnique`. -/
def addUnique [DecidableEq α] (grow : Nat → Nat) (z : α) (h : Heap α) (a : Slice) (i : α) : Heap α × Slice :=
  if contains (read h a) i then (h, a) else append grow z h a [i]

/-- utils/lists/group.go L15-22: the loop body for the remaining bucket numbers. -/
def splitLoop (inp : Slice) (chunkSize : Int) : List Nat → Go (List Slice)
  | [] => .ok []
  | i :: is => do
    let start : Int := (i : Int) * chunkSize
    let stop : Int := start + chunkSize
    let stop := if stop > inp.len then (inp.len : Int) else stop
    let c ← sub inp start stop
    let rest ← splitLoop inp chunkSize is
    pure (c :: rest)

/-- utils/lists/group.go L3-25 `Split`; it writes to no array but that of its result. -/
def split (inp : Slice) (maxSplitSize : Int) : Go (List Slice) :=
  if maxSplitSize ≤ 0 then .error .explicit
  else if (inp.len : Int) ≤ maxSplitSize then .ok [inp]
  else
    let buckets : Int := ((inp.len : Int) + maxSplitSize - 1).tdiv maxSplitSize
    let chunkSize : Int := ((inp.len : Int) + buckets - 1).tdiv buckets
    splitLoop inp chunkSize (List.range buckets.toNat)

/-- utils/lists/group.go L27-33 `Flatten`: the loop. -/
def flattenLoop (grow : Nat → Nat) (z : α) : List Slice → Heap α → Slice → Heap α × Slice
  | [], h, out => (h, out)
  | g :: gs, h, out => let r := append grow z h out (read h g); flattenLoop grow z gs r.1 r.2

/-- utils/lists/group.go L27-33 `Flatten`. -/
def flatten (grow : Nat → Nat) (z : α) (h : Heap α) (inp : List Slice) : Heap α × Slice := flattenLoop grow z inp h {}

/-! ### what a client may do with a slice -/

/-- `s[i] = x`, `s = append(s, xs...)`, `s = s[i:j]`. -/
inductive Use (α : Type) where
  | set (i : Nat) (x : α)
  | app (xs : List α)
  | sub (i j : Nat)

/-- What it does; a panic does nothing. -/
def use (grow : Nat → Nat) (z : α) (h : Heap α) (s : Slice) : Use α → Heap α × Slice
  | .set i x => if i < s.len then (h.set s.arr (overlay (h.getD s.arr []) (s.off + i) [x]), s) else (h, s)
  | .app xs => append grow z h s xs
  | .sub i j => if i ≤ j ∧ j ≤ s.cap then (h, { arr := s.arr, off := s.off + i, len := j - i, cap := s.cap - i }) else (h, s)

/-- A slice can be extended up to its capacity. -/
example : (use (fun n => n) 0 [[1, 2, 3, 4]] { arr := 0, off := 1, len := 1, cap := 3 } (.sub 0 3)).2 = { arr := 0, off := 1, len := 3, cap := 3 } ∧
    (use (fun n => n) 0 [[1, 2, 3, 4]] { arr := 0, off := 1, len := 1, cap := 3 } (.sub 0 4)).2 = { arr := 0, off := 1, len := 1, cap := 3 } ∧
    (use (fun n => n) 0 [[1, 2, 3, 4]] { arr := 0, off := 1, len := 1, cap := 3 } (.sub 2 2)).2 = { arr := 0, off := 3, len := 0, cap := 1 } := by decide

/-- One after the other. -/
def uses (grow : Nat → Nat) (z : α) (h : Heap α) (s : Slice) : List (Use α) → Heap α × Slice
  | [] => (h, s)
  | u :: us => let r := use grow z h s u; uses grow z r.1 r.2 us

/-! ### lemmas -/

/-- A slice is within its array. -/
def WF (h : Heap α) (s : Slice) : Prop := s.len ≤ s.cap ∧ (0 < s.cap → s.arr < h.length ∧ s.off + s.cap ≤ (h.getD s.arr []).length)

/-- No array in common. -/
def Apart (s t : Slice) : Prop := s.cap = 0 ∨ t.cap = 0 ∨ s.arr ≠ t.arr

theorem length_overlay (l : List α) (p : Nat) (xs : List α) (h : p + xs.length ≤ l.length) : (overlay l p xs).length = l.length := by
  simp [overlay]; omega

theorem overlay_nil (l : List α) (p : Nat) : overlay l p [] = l := by simp [overlay]

theorem read_length (h : Heap α) (s : Slice) (w : WF h s) : (read h s).length = s.len := by
  obtain ⟨h1, h2⟩ := w
  rcases Nat.eq_zero_or_pos s.cap with hc | hc
  · simp [read]; omega
  · have := h2 hc
    simp only [read, List.length_take, List.length_drop]
    omega

theorem read_cap0 (h : Heap α) (s : Slice) (w : WF h s) (hc : s.cap = 0) : read h s = [] := by
  have := w.1
  have : s.len = 0 := by omega
  simp [read, this]

/-- Other arrays may have come, and that of the slice is as it was: nothing changed for it. -/
theorem read_same (h h' : Heap α) (s : Slice) (w : WF h s) (hl : h.length ≤ h'.length) (hs : 0 < s.cap → h'.getD s.arr [] = h.getD s.arr []) :
    read h' s = read h s ∧ WF h' s := by
  rcases Nat.eq_zero_or_pos s.cap with hc | hc
  · have w' : WF h' s := ⟨w.1, fun h => absurd hc (by omega)⟩
    exact ⟨by rw [read_cap0 h s w hc, read_cap0 h' s w' hc], w'⟩
  · have h1 := hs hc
    refine ⟨by simp only [read, h1], w.1, fun h => ?_⟩
    have := w.2 h
    rw [h1]
    exact ⟨by omega, this.2⟩

theorem getD_set_ne (h : Heap α) (a b : Nat) (l : List α) (hab : a ≠ b) : (h.set a l).getD b [] = h.getD b [] := by
  simp [List.getD_eq_getElem?_getD, List.getElem?_set_ne hab]

theorem getD_set_eq (h : Heap α) (a : Nat) (l : List α) (ha : a < h.length) : (h.set a l).getD a [] = l := by
  simp [List.getD_eq_getElem?_getD, ha]

theorem getD_append_left (h : Heap α) (l : List α) (a : Nat) (ha : a < h.length) : (h ++ [l]).getD a [] = h.getD a [] := by
  simp [List.getD_eq_getElem?_getD, List.getElem?_append_left ha]

theorem getD_append_new (h : Heap α) (l : List α) : (h ++ [l]).getD h.length [] = l := by
  simp [List.getD_eq_getElem?_getD]

theorem set_self (h : Heap α) (a : Nat) : h.set a (h.getD a []) = h := by
  by_cases ha : a < h.length
  · apply List.ext_getElem
    · simp
    · intro i h1 h2
      simp only [List.getElem_set]
      split
      · rename_i hx; subst hx; simp [List.getD_eq_getElem?_getD, ha]
      · rfl
  · rw [List.set_eq_of_length_le (by omega)]

/-- `append`: what the result holds. -/
theorem append_spec (grow : Nat → Nat) (z : α) (h : Heap α) (s : Slice) (xs : List α) (w : WF h s) :
    read (append grow z h s xs).1 (append grow z h s xs).2 = read h s ++ xs ∧ WF (append grow z h s xs).1 (append grow z h s xs).2 ∧
    h.length ≤ (append grow z h s xs).1.length ∧ read (append grow z h s xs).1 s = read h s ∧ WF (append grow z h s xs).1 s := by
  have hlen := read_length h s w
  unfold append
  split
  · rename_i hle
    rcases Nat.eq_zero_or_pos s.cap with hc | hc
    · have hx : xs = [] := List.eq_nil_of_length_eq_zero (by omega)
      subst hx
      have h0 : s.len = 0 := by omega
      refine ⟨by simp only [overlay_nil, set_self, List.length_nil, Nat.add_zero, List.append_nil], ?_, by simp, by simp only [overlay_nil, set_self], ?_⟩
      · simp only [overlay_nil, set_self]; exact ⟨w.1, w.2⟩
      · simp only [overlay_nil, set_self]; exact ⟨w.1, w.2⟩
    · obtain ⟨w1, w2⟩ := w.2 hc
      have hov : (overlay (h.getD s.arr []) (s.off + s.len) xs).length = (h.getD s.arr []).length := length_overlay _ _ _ (by omega)
      refine ⟨?_, ⟨?_, ?_⟩, by simp, ?_, ⟨w.1, ?_⟩⟩
      · simp only [read]
        rw [getD_set_eq _ _ _ w1]
        apply List.ext_getElem?
        intro i
        simp only [overlay, List.getElem?_take, List.getElem?_drop, List.getElem?_append, List.length_take, List.length_append, List.length_drop]
        have e1 : min s.len ((h.getD s.arr []).length - s.off) = s.len := by omega
        have e2 : min (s.off + s.len) (h.getD s.arr []).length = s.off + s.len := by omega
        rw [e1, e2]
        have e3 : s.off + i - (s.off + s.len) = i - s.len := by omega
        by_cases hi : i < s.len
        · have k1 : i < s.len + xs.length := by omega
          have k2 : s.off + i < s.off + s.len + xs.length := by omega
          have k3 : s.off + i < s.off + s.len := by omega
          simp only [hi, k1, k2, k3, if_true, ↓reduceIte]
        · by_cases hi2 : i < s.len + xs.length
          · have k2 : s.off + i < s.off + s.len + xs.length := by omega
            have k3 : ¬ s.off + i < s.off + s.len := by omega
            simp only [hi, hi2, k2, k3, if_true, if_false, ↓reduceIte, e3]
          · have k4 : xs.length ≤ i - s.len := by omega
            simp only [hi, hi2, ↓reduceIte, List.getElem?_eq_none k4]
      · show s.len + xs.length ≤ s.cap
        exact hle
      · intro _
        refine ⟨by simpa using w1, ?_⟩
        simp only
        rw [getD_set_eq _ _ _ w1, hov]
        exact w2
      · simp only [read]
        rw [getD_set_eq _ _ _ w1]
        apply List.ext_getElem?
        intro i
        simp only [overlay, List.getElem?_take, List.getElem?_drop, List.getElem?_append, List.length_take, List.length_append]
        by_cases hi : i < s.len
        · have e2 : min (s.off + s.len) (h.getD s.arr []).length = s.off + s.len := by omega
          have k2 : s.off + i < s.off + s.len + xs.length := by omega
          have k3 : s.off + i < s.off + s.len := by omega
          simp only [e2, hi, k2, k3, ↓reduceIte]
        · simp only [hi, ↓reduceIte]
      · intro _
        refine ⟨by simpa using w1, ?_⟩
        rw [getD_set_eq _ _ _ w1, hov]
        exact w2
  · refine ⟨?_, ⟨by simp only; omega, ?_⟩, by simp, ?_⟩
    · simp only [read]
      rw [getD_append_new]
      simp only [List.drop_zero]
      have : s.len + xs.length = (List.take s.len (List.drop s.off (h.getD s.arr [])) ++ xs).length := by
        have := hlen
        simp only [read] at this
        rw [List.length_append, this]
      rw [this, List.take_append_of_le_length (Nat.le_refl _), List.take_length]
    · intro _
      simp only
      rw [getD_append_new]
      refine ⟨by simp, ?_⟩
      simp only [List.length_append, hlen, List.length_replicate]
      omega
    · exact read_same h _ s w (by simp) (fun hc => getD_append_left _ _ _ (w.2 hc).1)

/-- What is done with one slice, the other does not see. -/
theorem use_apart (grow : Nat → Nat) (z : α) (h : Heap α) (s t : Slice) (u : Use α) (ws : WF h s) (wt : WF h t) (ha : Apart s t) :
    read (use grow z h s u).1 t = read h t ∧ WF (use grow z h s u).1 t ∧ WF (use grow z h s u).1 (use grow z h s u).2 ∧ Apart (use grow z h s u).2 t := by
  cases u with
  | set i x =>
    simp only [use]
    split
    · rename_i hi
      have hc : 0 < s.cap := by have := ws.1; omega
      obtain ⟨w1, w2⟩ := ws.2 hc
      have hov : (overlay (h.getD s.arr []) (s.off + i) [x]).length = (h.getD s.arr []).length := by
        apply length_overlay
        have := ws.1
        simp only [List.length_singleton]
        omega
      have := read_same h (h.set s.arr (overlay (h.getD s.arr []) (s.off + i) [x])) t wt (by simp) (fun ht => by
        apply getD_set_ne
        rcases ha with ha | ha | ha
        · omega
        · omega
        · exact ha)
      refine ⟨this.1, this.2, ⟨ws.1, fun _ => ⟨by simpa using w1, ?_⟩⟩, ha⟩
      rw [getD_set_eq _ _ _ w1, hov]
      exact w2
    · exact ⟨rfl, wt, ws, ha⟩
  | sub i j =>
    simp only [use]
    split
    · rename_i hi
      refine ⟨rfl, wt, ⟨by simp only; omega, fun hc => ?_⟩, ?_⟩
      · simp only at hc ⊢
        have := ws.2 (by omega)
        exact ⟨this.1, by omega⟩
      · rcases ha with ha | ha | ha
        · exact Or.inl (show s.cap - i = 0 by omega)
        · exact Or.inr (Or.inl ha)
        · exact Or.inr (Or.inr ha)
    · exact ⟨rfl, wt, ws, ha⟩
  | app xs =>
    simp only [use]
    obtain ⟨-, k2, -, -, -⟩ := append_spec grow z h s xs ws
    refine ⟨?_, ?_, k2, ?_⟩
    all_goals
      unfold append
      split
      · rename_i hle
        rcases Nat.eq_zero_or_pos s.cap with hc | hc
        · have hx : xs = [] := List.eq_nil_of_length_eq_zero (by omega)
          subst hx
          first
          | exact ha
          | (simp only [overlay_nil, set_self]; done)
          | (simp only [overlay_nil, set_self]; exact wt)
        · have := read_same h (h.set s.arr (overlay (h.getD s.arr []) (s.off + s.len) xs)) t wt (by simp) (fun ht => by
            apply getD_set_ne
            rcases ha with ha | ha | ha
            · omega
            · omega
            · exact ha)
          first | exact this.1 | exact this.2 | exact ha
      · have := read_same h (h ++ [read h s ++ xs ++ List.replicate (grow s.cap) z]) t wt (by simp) (fun hc => getD_append_left _ _ _ (wt.2 hc).1)
        first
        | exact this.1
        | exact this.2
        | (rcases Nat.eq_zero_or_pos t.cap with hc | hc
           · exact Or.inr (Or.inl hc)
           · have := (wt.2 hc).1
             exact Or.inr (Or.inr (show h.length ≠ t.arr by omega)))

theorem uses_apart (grow : Nat → Nat) (z : α) : ∀ (us : List (Use α)) (h : Heap α) (s t : Slice), WF h s → WF h t → Apart s t →
    read (uses grow z h s us).1 t = read h t
  | [], _, _, _, _, _, _ => rfl
  | u :: us, h, s, t, ws, wt, ha => by
    obtain ⟨h1, h2, h3, h4⟩ := use_apart grow z h s t u ws wt ha
    simp only [uses]
    rw [uses_apart grow z us _ _ t h3 h2 h4, h1]

theorem apart_symm (s t : Slice) (h : Apart s t) : Apart t s := by
  rcases h with h | h | h
  · exact Or.inr (Or.inl h)
  · exact Or.inl h
  · exact Or.inr (Or.inr (Ne.symm h))

end
end Verif.Lists.Heap

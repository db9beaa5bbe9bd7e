import Verif.TestIO.Props
/-!
# The buffered pipe and the memory of its callers (C169) (test/io.go)

`Append` and `Write` keep the slice they are given. Here slices are parts of arrays that the callers go on using; the methods are called one after the other, and a `Read` that waits is an answer of
its own.
-/
set_option autoImplicit false
namespace Verif.TestIO.Shared
open Verif.TestIO

variable {α : Type}

/-- A slice: the array, the first cell, length and capacity. test/io.go L29, L53, L87. -/
structure Slice where
  arr : Nat
  off : Nat
  len : Nat
  cap : Nat
deriving DecidableEq

/-- The cells of all arrays. test/io.go L14-16. -/
abbrev Mem (α : Type) := Nat → Nat → α

/-- The content of a slice. test/io.go L14-16. -/
def Slice.val (m : Mem α) (s : Slice) : List α := (List.range s.len).map fun i => m s.arr (s.off + i)

/-- The slice without its first `n` elements. test/io.go L66. -/
def Slice.from (s : Slice) (n : Nat) : Slice := { s with off := s.off + n, len := s.len - n, cap := s.cap - n }

/-- `copy(dst, src)` of `n` elements, as if they were read first. test/io.go L64. -/
def copyCells (m : Mem α) (dst src : Slice) (n : Nat) : Mem α :=
  fun a i => if a = dst.arr ∧ dst.off ≤ i ∧ i < dst.off + n then m src.arr (src.off + (i - dst.off)) else m a i

/-- The memory and the fields. test/io.go L9-18. -/
structure State (α : Type) where
  mem : Mem α
  closed : Bool := false
  toRead : List Slice := []
  written : List Slice := []

/-- The calls, and what callers do with their arrays. test/io.go L29-108. -/
inductive Op (α : Type) where
  | append (s : Slice)
  | read (dst : Slice)
  | write (s : Slice)
  | setReadClosed
  | close
  | edit (a i : Nat) (v : α)

/-- What a call answers; for `Read` with what is in the buffer afterwards. test/io.go L29-108. -/
inductive Ans (α : Type) where
  | done
  | panic
  | data (l : List α)
  | eof
  | waits
  | count (n : Nat)
  | closedPipe
deriving DecidableEq

/-- One call. test/io.go L29-37 (`Append`), L45-50 (`SetReadClosed`), L53-79 (`Read`), L87-98 (`Write`), L100-108 (`Close`). -/
def step (s : State α) : Op α → State α × Ans α
  | .append p => if s.closed then (s, .panic) else ({ s with toRead := s.toRead ++ [p] }, .done)
  | .setReadClosed => ({ s with closed := true }, .done)
  | .close => if s.closed then (s, .closedPipe) else ({ s with closed := true }, .done)
  | .write p => if p.len = 0 then (s, .count 0) else if s.closed then (s, .closedPipe) else ({ s with written := s.written ++ [p] }, .count p.len)
  | .edit a i v => ({ s with mem := fun b j => if b = a ∧ j = i then v else s.mem b j }, .done)
  | .read dst =>
    if dst.cap = 0 then (s, if s.toRead = [] ∧ s.closed = true then .eof else .data [])
    else match s.toRead with
      | p :: rest =>
        let ct := min dst.len p.len
        let m := copyCells s.mem dst p ct
        ({ s with mem := m, toRead := if ct < p.len then p.from ct :: rest else rest }, .data ({ dst with len := ct }.val m))
      | [] => if s.closed then (s, .eof) else (s, .waits)

/-- Calls, one after the other. test/io.go L29-108. -/
def run (s : State α) : List (Op α) → State α × List (Ans α)
  | [] => (s, [])
  | op :: ops => ((run (step s op).1 ops).1, (step s op).2 :: (run (step s op).1 ops).2)

/-! ### what should be: a pipe of bytes -/

/-- A pipe that has the bytes themselves. -/
structure Pipe (α : Type) where
  closed : Bool := false
  toRead : List (List α) := []
  written : List (List α) := []

/-- One call, with the content of the slice at the time of the call. -/
def Pipe.step (p : Pipe α) (m : Mem α) : Op α → Pipe α × Ans α
  | .append s => if p.closed then (p, .panic) else ({ p with toRead := p.toRead ++ [s.val m] }, .done)
  | .setReadClosed => ({ p with closed := true }, .done)
  | .close => if p.closed then (p, .closedPipe) else ({ p with closed := true }, .done)
  | .write s => if s.len = 0 then (p, .count 0) else if p.closed then (p, .closedPipe) else ({ p with written := p.written ++ [s.val m] }, .count s.len)
  | .edit _ _ _ => (p, .done)
  | .read dst =>
    if dst.len = 0 then (p, if p.toRead = [] ∧ p.closed = true then .eof else .data [])
    else match p.toRead with
      | c :: rest => ({ p with toRead := if dst.len < c.length then c.drop dst.len :: rest else rest }, .data (c.take dst.len))
      | [] => if p.closed then (p, .eof) else (p, .waits)

/-- Calls, one after the other, while the memory is what the code makes of it. -/
def Pipe.run (p : Pipe α) (s : State α) : List (Op α) → Pipe α × List (Ans α)
  | [] => (p, [])
  | op :: ops => ((Pipe.run (p.step s.mem op).1 (Shared.step s op).1 ops).1, (p.step s.mem op).2 :: (Pipe.run (p.step s.mem op).1 (Shared.step s op).1 ops).2)

/-- The cells of a slice. -/
def Slice.Has (s : Slice) (a i : Nat) : Prop := a = s.arr ∧ s.off ≤ i ∧ i < s.off + s.len

/-- The cells that a call writes: one, or those of the buffer of a `Read`. -/
def Writes (op : Op α) (a i : Nat) : Prop :=
  match op with
  | .edit b j _ => a = b ∧ i = j
  | .read dst => dst.Has a i
  | _ => False

/-- No cell is written while the pipe has it: neither one that is to be read, nor one that was written to the pipe; and buffers without length have no capacity. -/
def Careful (s : State α) : List (Op α) → Prop
  | [] => True
  | op :: ops => (∀ a i, Writes op a i → ∀ p, (p ∈ s.toRead ∨ p ∈ s.written) → ¬ p.Has a i) ∧ (∀ dst, op = .read dst → dst.len = 0 → dst.cap = 0) ∧
      (∀ dst, op = .read dst → dst.len ≤ dst.cap) ∧ Careful (step s op).1 ops

/-! ### proofs -/

theorem val_length (m : Mem α) (s : Slice) : (s.val m).length = s.len := by simp [Slice.val]

theorem val_congr (m m' : Mem α) (s : Slice) (h : ∀ a i, s.Has a i → m' a i = m a i) : s.val m' = s.val m := by
  simp only [Slice.val]
  refine List.map_congr_left fun i hi => h _ _ ⟨rfl, by omega, ?_⟩
  have := List.mem_range.1 hi; omega

theorem val_from (m : Mem α) (s : Slice) (n : Nat) : (s.from n).val m = (s.val m).drop n := by
  apply List.ext_getElem
  · simp [Slice.val, Slice.from]
  · intro i h1 h2
    simp [Slice.val, Slice.from, Nat.add_assoc]

theorem val_copy (m : Mem α) (dst src : Slice) (n : Nat) (hs : n ≤ src.len) : { dst with len := n }.val (copyCells m dst src n) = (src.val m).take n := by
  apply List.ext_getElem
  · simp [Slice.val]; omega
  · intro i h1 h2
    have hi : i < n := by simpa [Slice.val] using h1
    simp [Slice.val, copyCells, hi]

/-- The pipe has the contents of the slices. -/
structure Rep (s : State α) (p : Pipe α) : Prop where
  closed : p.closed = s.closed
  toRead : p.toRead = s.toRead.map (Slice.val s.mem)
  written : p.written = s.written.map (Slice.val s.mem)

theorem map_val_congr (m m' : Mem α) (l : List Slice) (h : ∀ p ∈ l, ∀ a i, p.Has a i → m' a i = m a i) : l.map (Slice.val m') = l.map (Slice.val m) :=
  List.map_congr_left fun p hp => val_congr m m' p (h p hp)

theorem rep_step (s : State α) (p : Pipe α) (hr : Rep s p) (op : Op α) (hw : ∀ a i, Writes op a i → ∀ q, (q ∈ s.toRead ∨ q ∈ s.written) → ¬ q.Has a i)
    (hc : ∀ dst, op = .read dst → dst.len = 0 → dst.cap = 0) (hl : ∀ dst, op = .read dst → dst.len ≤ dst.cap) :
    Rep (step s op).1 (p.step s.mem op).1 ∧ (p.step s.mem op).2 = (step s op).2 := by
  obtain ⟨h1, h2, h3⟩ := hr
  cases op with
  | append q =>
    simp only [step, Pipe.step, h1]
    cases hcl : s.closed with
    | true => exact ⟨⟨by simp [h1, hcl], h2, h3⟩, rfl⟩
    | false => exact ⟨⟨by simp [h1, hcl], by simp [h2], h3⟩, rfl⟩
  | setReadClosed => exact ⟨⟨rfl, h2, h3⟩, rfl⟩
  | close =>
    simp only [step, Pipe.step, h1]
    cases hcl : s.closed with
    | true => exact ⟨⟨by simp [h1, hcl], h2, h3⟩, rfl⟩
    | false => exact ⟨⟨rfl, h2, h3⟩, rfl⟩
  | write q =>
    simp only [step, Pipe.step, h1]
    by_cases hq : q.len = 0
    · simp only [hq, if_true]; exact ⟨⟨h1, h2, h3⟩, trivial⟩
    · simp only [hq, if_false]
      cases hcl : s.closed with
      | true => exact ⟨⟨by simp [h1, hcl], h2, h3⟩, rfl⟩
      | false => exact ⟨⟨by simp [h1, hcl], h2, by simp [h3]⟩, rfl⟩
  | edit b j v =>
    have key : ∀ l : List Slice, (∀ q ∈ l, q ∈ s.toRead ∨ q ∈ s.written) → l.map (Slice.val (step s (.edit b j v)).1.mem) = l.map (Slice.val s.mem) := by
      intro l hl
      refine map_val_congr _ _ l fun q hq a i hi => ?_
      simp only [step]
      split
      · rename_i he
        exact absurd hi (hw a i ⟨he.1, he.2⟩ q (hl q hq))
      · rfl
    exact ⟨⟨h1, h2.trans (key s.toRead fun _ h => .inl h).symm, h3.trans (key s.written fun _ h => .inr h).symm⟩, rfl⟩
  | read dst =>
    simp only [step, Pipe.step, h1]
    by_cases hd : dst.len = 0
    · have hcap := hc dst rfl hd
      simp only [hd, hcap, if_true]
      refine ⟨⟨h1, h2, h3⟩, ?_⟩
      rw [h2]; simp
    · have hcap : dst.cap ≠ 0 := by have := hl dst rfl; omega
      simp only [hd, hcap, if_false]
      cases ht : s.toRead with
      | nil =>
        rw [ht] at h2
        simp only [h2, List.map_nil]
        cases hcl : s.closed with
        | true => exact ⟨⟨by simp [h1, hcl], by simp [h2, ht], h3⟩, rfl⟩
        | false => exact ⟨⟨by simp [h1, hcl], by simp [h2, ht], h3⟩, rfl⟩
      | cons q rest =>
        have hq : p.toRead = q.val s.mem :: rest.map (Slice.val s.mem) := by rw [h2, ht]; rfl
        simp only [hq, val_length]
        have hkeep : ∀ l : List Slice, (∀ x ∈ l, ∃ y, (y ∈ s.toRead ∨ y ∈ s.written) ∧ ∀ a i, x.Has a i → y.Has a i) →
            l.map (Slice.val (copyCells s.mem dst q (min dst.len q.len))) = l.map (Slice.val s.mem) := by
          intro l hl
          refine map_val_congr _ _ l fun x hx a i hi => ?_
          obtain ⟨y, hy, hsub⟩ := hl x hx
          simp only [copyCells]
          split
          · rename_i he
            exact absurd (hsub a i hi) (hw a i ⟨he.1, he.2.1, by omega⟩ y hy)
          · rfl
        have hrest := hkeep rest fun x hx => ⟨x, .inl (by rw [ht]; exact List.mem_cons_of_mem _ hx), fun _ _ h => h⟩
        have hwr := hkeep s.written fun x hx => ⟨x, .inr hx, fun _ _ h => h⟩
        have hans : (q.val s.mem).take dst.len = { dst with len := min dst.len q.len }.val (copyCells s.mem dst q (min dst.len q.len)) := by
          rw [val_copy s.mem dst q _ (Nat.min_le_right ..)]
          rcases Nat.le_total dst.len q.len with h | h
          · rw [Nat.min_eq_left h]
          · rw [Nat.min_eq_right h, List.take_of_length_le (by rw [val_length]; exact h), List.take_of_length_le (by rw [val_length]; exact Nat.le_refl _)]
        refine ⟨⟨by simp [h1], ?_, by rw [h3]; exact hwr.symm⟩, by rw [hans]⟩
        simp only
        by_cases hlt : dst.len < q.len
        · have hm : min dst.len q.len = dst.len := by omega
          have hf := hkeep [q.from (min dst.len q.len)] fun x hx => ⟨q, .inl (by rw [ht]; exact List.mem_cons_self), by
            intro a i hh
            simp only [List.mem_singleton] at hx
            subst hx
            obtain ⟨e1, e2, e3⟩ := hh
            simp only [Slice.from] at e1 e2 e3
            exact ⟨e1, by omega, by omega⟩⟩
          have hlt' : min dst.len q.len < q.len := by omega
          simp only [hlt, hlt', if_true, List.map_cons, hrest]
          simp only [List.map_cons, List.map_nil, List.cons.injEq, and_true] at hf
          rw [hf, val_from, hm]
        · have hlt' : ¬ min dst.len q.len < q.len := by omega
          simp only [hlt, hlt', if_false, hrest]

/-- C169, what holds: if nobody writes to a slice while the pipe has it then the pipe is one of bytes: the reads give the bytes that were appended, and `Written` has what was written. Missing are callers that go on using
their slices, see `C169_reuse_violated` and `C169_late_violated`, and buffers of length zero, see `C169_empty_violated`. -/
theorem C169_bytes_partial (ops : List (Op α)) (s : State α) (p : Pipe α) (hr : Rep s p) (hc : Careful s ops) :
    (p.run s ops).2 = (run s ops).2 ∧ (p.run s ops).1.written = (run s ops).1.written.map (Slice.val (run s ops).1.mem) := by
  induction ops generalizing s p with
  | nil => exact ⟨rfl, hr.written⟩
  | cons op ops ih =>
    obtain ⟨h1, h2, h3, h4⟩ := hc
    obtain ⟨hr', ha⟩ := rep_step s p hr op h1 h2 h3
    obtain ⟨i1, i2⟩ := ih _ _ hr' h4
    exact ⟨by simp only [Pipe.run, run, ha, i1], i2⟩

/-- Two chunks, read with a buffer of three cells, and the buffer written back. -/
example : let chunk : Slice := ⟨0, 0, 4, 4⟩; let buf : Slice := ⟨1, 0, 3, 3⟩
    (run { mem := fun a i => if a = 0 then i + 10 else 0 } [.append chunk, .read buf, .write { buf with len := 2 }, .read ⟨2, 0, 3, 3⟩, .read buf, .setReadClosed, .read buf]).2 =
      [.done, .data [10, 11, 12], .count 2, .data [13], .waits, .done, .eof] := by decide

/-- Writing `vs` one by one with one buffer of one cell. -/
def oneBuffer (vs : List α) : List (Op α) := vs.flatMap fun v => [.edit 0 0 v, .write ⟨0, 0, 1, 1⟩]

/-- C169 (negation): a writer that uses its buffer again, as `io.Writer` allows, overwrites what it wrote: afterwards everything written is the last. -/
theorem C169_reuse_violated (vs : List α) (v : α) (m : Mem α) :
    let s := (run { mem := m } (oneBuffer (vs ++ [v]))).1
    s.written.map (Slice.val s.mem) = List.replicate (vs.length + 1) [v] ∧ (Pipe.run {} { mem := m } (oneBuffer (vs ++ [v]))).1.written = (vs ++ [v]).map fun x => [x] := by
  have gen : ∀ (vs : List α) (s : State α) (k : Nat), s.closed = false → s.written = List.replicate k ⟨0, 0, 1, 1⟩ →
      (run s (oneBuffer (vs ++ [v]))).1.written = List.replicate (k + vs.length + 1) ⟨0, 0, 1, 1⟩ ∧ (run s (oneBuffer (vs ++ [v]))).1.mem 0 0 = v := by
    intro vs
    induction vs with
    | nil =>
      intro s k hc hw
      simp [oneBuffer, run, step, hc, hw, ← List.replicate_succ']
    | cons x vs ih =>
      intro s k hc hw
      have := ih { mem := fun b j => if b = 0 ∧ j = 0 then x else s.mem b j, closed := false, toRead := s.toRead, written := List.replicate (k + 1) ⟨0, 0, 1, 1⟩ } (k + 1) rfl rfl
      have hrun : run s (oneBuffer (x :: vs ++ [v])) =
          ((run { mem := fun b j => if b = 0 ∧ j = 0 then x else s.mem b j, closed := false, toRead := s.toRead, written := List.replicate (k + 1) ⟨0, 0, 1, 1⟩ } (oneBuffer (vs ++ [v]))).1,
            .done :: .count 1 :: (run { mem := fun b j => if b = 0 ∧ j = 0 then x else s.mem b j, closed := false, toRead := s.toRead, written := List.replicate (k + 1) ⟨0, 0, 1, 1⟩ } (oneBuffer (vs ++ [v]))).2) := by
        simp [oneBuffer, run, step, hc, hw, ← List.replicate_succ']
      rw [hrun]
      refine ⟨?_, this.2⟩
      rw [this.1, List.length_cons]
      congr 1; omega
  have spec : ∀ (vs : List α) (s : State α) (p : Pipe α), p.closed = false → (Pipe.run p s (oneBuffer vs)).1.written = p.written ++ vs.map fun x => [x] := by
    intro vs
    induction vs with
    | nil => intro s p _; simp [oneBuffer, Pipe.run]
    | cons x vs ih =>
      intro s p hp
      have := ih (step (step s (.edit 0 0 x)).1 (.write ⟨0, 0, 1, 1⟩)).1 { closed := false, toRead := p.toRead, written := p.written ++ [[x]] } rfl
      simp only [List.map_cons]
      rw [show oneBuffer (x :: vs) = .edit 0 0 x :: .write ⟨0, 0, 1, 1⟩ :: oneBuffer vs from rfl]
      have hval : Slice.val (step s (.edit 0 0 x)).1.mem ⟨0, 0, 1, 1⟩ = [x] := by simp [Slice.val, step]
      simp only [Pipe.run, Pipe.step, hp, hval, Bool.false_eq_true, if_false, Nat.one_ne_zero]
      rw [this]; simp
  intro s
  obtain ⟨h1, h2⟩ := gen vs { mem := m } 0 rfl rfl
  refine ⟨?_, by simpa using spec (vs ++ [v]) { mem := m } {} rfl⟩
  show (run { mem := m } (oneBuffer (vs ++ [v]))).1.written.map (Slice.val (run { mem := m } (oneBuffer (vs ++ [v]))).1.mem) = _
  rw [h1, Nat.zero_add, List.map_replicate]
  congr 1
  show [(run { mem := m } (oneBuffer (vs ++ [v]))).1.mem 0 0] = [v]
  rw [h2]

/-- C169 (negation): what is appended can be changed until it is read. -/
theorem C169_late_violated (m : Mem α) (x y : α) (h : x ≠ y) :
    (run { mem := m } [.edit 0 0 x, .append ⟨0, 0, 1, 1⟩, .edit 0 0 y, .read ⟨1, 0, 1, 1⟩]).2 = [.done, .done, .done, .data [y]] ∧
    (Pipe.run {} { mem := m } [.edit 0 0 x, .append ⟨0, 0, 1, 1⟩, .edit 0 0 y, .read ⟨1, 0, 1, 1⟩]).2 = [.done, .done, .done, .data [x]] ∧
    (Ans.data [y] : Ans α) ≠ .data [x] := by
  refine ⟨?_, ?_, fun he => by injection he with he; injection he with he; exact h he.symm⟩
  · simp [run, step, Slice.val, copyCells, List.range_succ]
  · simp [Pipe.run, Pipe.step, step, Slice.val, List.range_succ]

/-- C169 (negation): a `Read` with an empty buffer that has capacity waits for bytes it can not take, where one without capacity returns at once. -/
theorem C169_empty_violated (m : Mem α) (a off cap : Nat) (hc : cap ≠ 0) :
    (step { mem := m } (.read ⟨a, off, 0, cap⟩)).2 = .waits ∧ (step { mem := m } (.read ⟨a, off, 0, 0⟩)).2 = .data [] ∧ (Pipe.step {} m (.read ⟨a, off, 0, cap⟩)).2 = .data [] := by
  simp [step, Pipe.step, hc]

/-- What is left of a slice ends where the slice ended, in its capacity as well. -/
theorem from_end (s : Slice) (n : Nat) (hn : n ≤ s.len) (hc : s.len ≤ s.cap) : (s.from n).off + (s.from n).len = s.off + s.len ∧ (s.from n).off + (s.from n).cap = s.off + s.cap := by
  simp only [Slice.from]; omega

/-- The cells of a slice of two elements that has room for more. -/
example : let s : Slice := { arr := 1, off := 3, len := 2, cap := 7 }
    s.Has 1 3 ∧ s.Has 1 4 ∧ ¬ s.Has 1 2 ∧ ¬ s.Has 1 5 ∧ ¬ s.Has 0 3 := by simp [Slice.Has]

end Verif.TestIO.Shared

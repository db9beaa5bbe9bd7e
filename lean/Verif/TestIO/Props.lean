import Verif.TestIO.Model
/-!
# The buffered pipe: properties (C64, C89)
-/
set_option autoImplicit false
namespace Verif.TestIO

variable {α : Type}

theorem look_some {b b' : Buf α} {size : Nat} {res : ReadRes α} (h : look b size = some (res, b')) :
    b'.closed = b.closed ∧ b'.written = b.written ∧ b'.parked = b.parked ∧ b'.woken = b.woken ∧
    ((res = .eof ∧ b.toRead = [] ∧ b.closed = true ∧ b' = b) ∨
      ∃ l p rest, res = .data l ∧ b.toRead = p :: rest ∧ l = p.take size ∧ b.toRead.flatten = l ++ b'.toRead.flatten) := by
  unfold look at h
  split at h
  · rename_i p rest hp
    simp only [Option.some.injEq, Prod.mk.injEq] at h
    obtain ⟨h1, h2⟩ := h
    subst h1 h2
    refine ⟨rfl, rfl, rfl, rfl, Or.inr ⟨_, p, rest, rfl, hp, ?_, ?_⟩⟩
    · rw [List.take_eq_take_iff]; omega
    · rw [hp]
      simp only [List.flatten_cons]
      split
      · simp only [List.flatten_cons, ← List.append_assoc, List.take_append_drop]
      · rw [List.take_of_length_le (by omega)]
  · rename_i hp
    split at h
    · rename_i hc
      simp only [Option.some.injEq, Prod.mk.injEq] at h
      obtain ⟨h1, h2⟩ := h
      subst h1 h2
      exact ⟨rfl, rfl, rfl, rfl, Or.inl ⟨rfl, hp, hc, rfl⟩⟩
    · cases h

theorem look_none {b : Buf α} {size : Nat} : look b size = none ↔ b.toRead = [] ∧ b.closed = false := by
  unfold look
  cases b.toRead <;> simp

theorem run_append {b b' : Buf α} {tr tr' : List (Ev α)} (h : Run b (tr ++ tr') b') : ∃ m, Run b tr m ∧ Run m tr' b' := by
  induction tr generalizing b with
  | nil => exact ⟨b, .nil _, h⟩
  | cons e tr ih =>
    cases h with
    | cons hs h =>
      obtain ⟨m, h1, h2⟩ := ih h
      exact ⟨m, .cons hs h1, h2⟩

/-- One step: the bytes got, then those to be read, are those to be read before, and those appended. -/
theorem step_bytes {b b' : Buf α} {e : Ev α} (hs : Step b e b') : e.got ++ b'.toRead.flatten = b.toRead.flatten ++ e.appended := by
  have key : ∀ {b' : Buf α} {size : Nat} {res : ReadRes α}, look b size = some (res, b') →
      (match res with | .data l => l | .eof => []) ++ b'.toRead.flatten = b.toRead.flatten := by
    intro b' size res hl
    obtain ⟨_, _, _, _, h⟩ := look_some hl
    rcases h with ⟨rfl, _, _, rfl⟩ | ⟨l, p, rest, rfl, _, _, h⟩
    · rfl
    · exact h.symm
  cases hs with
  | @read _ who size res hsz hl => have := key hl; cases res <;> simpa [Ev.got, Ev.appended] using this
  | @resume b' who size res l l' hw hl => have := key hl; cases res <;> simpa [Ev.got, Ev.appended] using this
  | _ => simp [Ev.got, Ev.appended]

theorem run_bytes {b b' : Buf α} {tr : List (Ev α)} (h : Run b tr b') : tr.flatMap Ev.got ++ b'.toRead.flatten = b.toRead.flatten ++ tr.flatMap Ev.appended := by
  induction h with
  | nil b => simp
  | @cons b b' b'' e tr hs _ ih =>
    simp only [List.flatMap_cons, List.append_assoc, ih]
    rw [← List.append_assoc, step_bytes hs, List.append_assoc]

/-- C64: the bytes the readers got, and those still to be read, are the bytes appended, in order. -/
theorem C64_in_order (tr : List (Ev α)) (b : Buf α) (h : Run {} tr b) : tr.flatMap Ev.got ++ b.toRead.flatten = tr.flatMap Ev.appended := by
  simpa using run_bytes h

/-- Closing. -/
theorem step_closed {b b' : Buf α} {e : Ev α} (hs : Step b e b') : b'.closed = true ↔ b.closed = true ∨ e.closes := by
  cases hs with
  | read _ hl => rw [(look_some hl).1]; simp [Ev.closes]
  | resume _ hl => simp only [(look_some hl).1, Ev.closes, or_false]
  | setReadClosed => simp [Ev.closes]
  | close _ => simp [Ev.closes]
  | _ => simp [Ev.closes]

theorem run_closed {b b' : Buf α} {tr : List (Ev α)} (h : Run b tr b') : b'.closed = true ↔ b.closed = true ∨ ∃ e ∈ tr, e.closes := by
  induction h with
  | nil b => simp
  | cons hs _ ih => rw [ih, step_closed hs]; simp [or_assoc]

/-- Once closed and empty, nothing is read or appended. -/
theorem step_end {b b' : Buf α} {e : Ev α} (hs : Step b e b') (h1 : b.closed = true) (h2 : b.toRead = []) : b'.closed = true ∧ b'.toRead = [] ∧ e.got = [] ∧ e.appended = [] := by
  have key : ∀ {b' : Buf α} {size : Nat} {res : ReadRes α}, look b size = some (res, b') → res = .eof ∧ b' = b := by
    intro b' size res hl
    rcases (look_some hl).2.2.2.2 with ⟨h1, _, _, h2⟩ | ⟨_, _, _, _, h, _⟩
    · exact ⟨h1, h2⟩
    · rw [h2] at h; cases h
  cases hs with
  | appendNone hc _ => rw [h1] at hc; cases hc
  | append hc _ => rw [h1] at hc; cases hc
  | read _ hl => obtain ⟨rfl, rfl⟩ := key hl; exact ⟨h1, h2, rfl, rfl⟩
  | resume _ hl => obtain ⟨rfl, rfl⟩ := key hl; exact ⟨h1, h2, rfl, rfl⟩
  | setReadClosed => exact ⟨rfl, h2, rfl, rfl⟩
  | close _ => exact ⟨rfl, h2, rfl, rfl⟩
  | _ => exact ⟨h1, h2, rfl, rfl⟩

theorem run_end {b b' : Buf α} {tr : List (Ev α)} (h : Run b tr b') (h1 : b.closed = true) (h2 : b.toRead = []) : tr.flatMap Ev.got = [] ∧ tr.flatMap Ev.appended = [] := by
  induction h with
  | nil b => exact ⟨rfl, rfl⟩
  | cons hs _ ih =>
    obtain ⟨a, b, c, d⟩ := step_end hs h1 h2
    simpa [c, d] using ih a b

theorem step_eof {b b' : Buf α} {e : Ev α} (hs : Step b e b') (he : e.isEof) : b.closed = true ∧ b.toRead = [] := by
  have key : ∀ {b' : Buf α} {size : Nat}, look b size = some (.eof, b') → b.closed = true ∧ b.toRead = [] := by
    intro b' size hl
    rcases (look_some hl).2.2.2.2 with ⟨_, h1, h2, _⟩ | ⟨_, _, _, h, _⟩
    · exact ⟨h2, h1⟩
    · cases h
  cases hs with
  | readNone =>
    cases h1 : b.toRead.isEmpty <;> cases h2 : b.closed <;> simp only [h1, h2, Bool.and_true, Bool.and_false, Ev.isEof] at he
    exact ⟨rfl, by simpa using h1⟩
  | @read _ who size res _ hl => cases res with
    | data l => cases he
    | eof => exact key hl
  | @resume b' who size res l l' _ hl => cases res with
    | data l => cases he
    | eof => exact key hl
  | _ => cases he

/-- C64: a reader gets EOF only if the buffer was closed and every appended byte was read; and from then on nothing is read, or appended. -/
theorem C64_eof (tr tr' : List (Ev α)) (e : Ev α) (b : Buf α) (h : Run {} (tr ++ e :: tr') b) (he : e.isEof) :
    tr.flatMap Ev.got = tr.flatMap Ev.appended ∧ (∃ c ∈ tr, c.closes) ∧ tr'.flatMap Ev.got = [] ∧ tr'.flatMap Ev.appended = [] := by
  obtain ⟨m, h1, h2⟩ := run_append h
  cases h2 with
  | cons hs h2 =>
    obtain ⟨e1, e2⟩ := step_eof hs he
    have ho := C64_in_order tr m h1
    rw [e2] at ho
    obtain ⟨a, b, _, _⟩ := step_end hs e1 e2
    exact ⟨by simpa using ho, by simpa using (run_closed h1).1 e1, run_end h2 a b⟩

/-- A `Read` event with buffer and result. -/
def Ev.readOf (size : Nat) (l : List α) : Ev α → Prop
  | .read _ n (.data l') | .resume _ n (.data l') => n = size ∧ l = l'
  | _ => False

/-- The size of the buffers of readers that wait is not 0. -/
theorem run_sizes {b b' : Buf α} {tr : List (Ev α)} (h : Run b tr b') (h0 : ∀ w ∈ b.parked ++ b.woken, 0 < w.2) : ∀ w ∈ b'.parked ++ b'.woken, 0 < w.2 := by
  induction h with
  | nil b => exact h0
  | cons hs _ ih =>
    refine ih ?_
    cases hs with
    | read _ hl => rw [(look_some hl).2.2.1, (look_some hl).2.2.2.1]; exact h0
    | resume hw hl =>
      simp only [(look_some hl).2.2.1]
      intro w hm
      refine h0 w ?_
      rw [hw]
      simp only [List.mem_append, List.mem_cons] at hm ⊢
      grind
    | setReadClosed => intro w hm; refine h0 w ?_; simp only [List.mem_append, List.nil_append] at hm ⊢; exact hm.symm
    | append _ hp =>
      intro w hm
      refine h0 w ?_
      rw [hp]
      simp only [List.mem_append, List.mem_cons, List.not_mem_nil] at hm ⊢
      grind
    | park hsz _ => intro w hm; simp only [List.mem_append, List.mem_cons, List.not_mem_nil] at hm h0 ⊢; grind
    | repark hw _ =>
      intro w hm
      rw [hw] at h0
      simp only [List.mem_append, List.mem_cons, List.not_mem_nil] at hm h0
      grind
    | _ => exact h0

/-- C64: a read returns no more than its buffer holds, and something, unless the chunk that was appended was itself empty. -/
theorem C64_progress (tr : List (Ev α)) (b b' : Buf α) (h : Run {} tr b) (e : Ev α) (size : Nat) (l : List α) (hs : Step b e b') (he : e.readOf size l) :
    l.length ≤ size ∧ (l = [] → ∃ rest, b.toRead = [] :: rest) := by
  have hsz := run_sizes h (fun w hw => by cases hw)
  have key : ∀ {b' : Buf α} {size : Nat}, 0 < size → look b size = some (.data l, b') → l.length ≤ size ∧ (l = [] → ∃ rest, b.toRead = [] :: rest) := by
    intro b' size hpos hl
    rcases (look_some hl).2.2.2.2 with ⟨h, _⟩ | ⟨l', p, rest, h1, h2, h3, _⟩
    · cases h
    · injection h1 with h1; subst h1
      refine ⟨by rw [h3]; exact List.length_take_le .., fun h0 => ⟨rest, ?_⟩⟩
      rw [h2, show p = [] from ?_]
      rw [h0] at h3
      cases p with
      | nil => rfl
      | cons a p => cases size with
        | zero => omega
        | succ n => simp at h3
  cases hs with
  | @read _ who size res hpos hl => cases res with
    | data l => obtain ⟨rfl, rfl⟩ := he; exact key hpos hl
    | eof => cases he
  | @resume b' who size res l l' hw hl => cases res with
    | data l => obtain ⟨rfl, rfl⟩ := he; exact key (hsz (who, size) (by rw [hw]; simp)) hl
    | eof => cases he
  | _ => cases he

/-- C64: what was written, in order, and nothing after the close. -/
theorem C64_written (tr : List (Ev α)) (b : Buf α) (h : Run {} tr b) : b.written = tr.flatMap Ev.wrote ∧
    ∀ t1 e t2, tr = t1 ++ e :: t2 → e.closes → t2.flatMap Ev.wrote = [] := by
  have step : ∀ {b b' : Buf α} {e : Ev α}, Step b e b' → b'.written = b.written ++ e.wrote ∧ (b.closed = true → e.wrote = []) := by
    intro b b' e hs
    cases hs with
    | read _ hl => rw [(look_some hl).2.1]; simp [Ev.wrote]
    | resume _ hl => simp [Ev.wrote, (look_some hl).2.1]
    | @write p hp hc => cases p with
      | nil => exact absurd rfl hp
      | cons a p => exact ⟨rfl, fun h => by rw [hc] at h; cases h⟩
    | @writeClosed p hp hc => cases p <;> simp [Ev.wrote]
    | _ => simp [Ev.wrote]
  have run : ∀ {b b' : Buf α} {tr : List (Ev α)}, Run b tr b' → b'.written = b.written ++ tr.flatMap Ev.wrote ∧ (b.closed = true → tr.flatMap Ev.wrote = []) := by
    intro b b' tr h
    induction h with
    | nil b => simp
    | cons hs _ ih =>
      obtain ⟨s1, s2⟩ := step hs
      refine ⟨by simp [ih.1, s1], fun hc => ?_⟩
      simp [s2 hc, ih.2 ((step_closed hs).2 (Or.inl hc))]
  refine ⟨by simpa using (run h).1, fun t1 e t2 he hc => ?_⟩
  subst he
  obtain ⟨m, _, h2⟩ := run_append h
  cases h2 with
  | cons hs h2 => exact (run h2).2 ((step_closed hs).2 (Or.inr hc))

/-! ### C89: readers that wait -/

/-- Events of one reader at a time, and without `Close`. -/
def Ev.simple : Ev α → Prop
  | .close true => False
  | _ => True

/-- The reads happen one after the other: one begins only if none waits. -/
def OneReader (b : Buf α) (e : Ev α) : Prop :=
  match e with
  | .read _ _ _ | .park _ _ => b.parked = [] ∧ b.woken = []
  | _ => True

/-- Executions with one reader, and closed only by `SetReadClosed`. -/
inductive Run1 : Buf α → List (Ev α) → Buf α → Prop where
  | nil (b : Buf α) : Run1 b [] b
  | cons {b b' b'' : Buf α} {e : Ev α} {tr : List (Ev α)} : e.simple → OneReader b e → Step b e b' → Run1 b' tr b'' → Run1 b (e :: tr) b''

/-- C89: with one reader, and the buffer closed by `SetReadClosed`, a reader that is left waiting has nothing to read, and the buffer is open. Missing are more readers, and
`Close`; see `C89_close_violated` and `C89_readers_violated`. -/
theorem C89_wakes_partial (tr : List (Ev α)) (b : Buf α) (h : Run1 {} tr b) : b.parked ≠ [] → b.toRead = [] ∧ b.closed = false := by
  have gen : ∀ {b b' : Buf α} {tr : List (Ev α)}, Run1 b tr b' → (b.parked ++ b.woken).length ≤ 1 ∧ (b.parked ≠ [] → b.toRead = [] ∧ b.closed = false) →
      (b'.parked ++ b'.woken).length ≤ 1 ∧ (b'.parked ≠ [] → b'.toRead = [] ∧ b'.closed = false) := by
    intro b b' tr h
    induction h with
    | nil b => exact id
    | cons hsim hone hs _ ih =>
      intro ⟨h1, h2⟩
      refine ih ?_
      cases hs with
      | appendNone hc hp => exact ⟨h1, fun h => absurd hp h⟩
      | @append p l l' w hc hp =>
        rw [hp] at h1
        simp only [List.length_append, List.length_cons] at h1
        have hl : l = [] := by cases l with
          | nil => rfl
          | cons _ _ => simp at h1; omega
        have hl' : l' = [] := by cases l' with
          | nil => rfl
          | cons _ _ => simp at h1; omega
        subst hl hl'
        exact ⟨by simp only [List.nil_append, List.length_append, List.length_cons, List.length_nil] at h1 ⊢; omega, fun h => absurd rfl h⟩
      | setReadClosed => exact ⟨by simp only [List.length_append, List.length_nil] at h1 ⊢; omega, fun h => absurd rfl h⟩
      | read _ hl =>
        rw [(look_some hl).2.2.1, (look_some hl).2.2.2.1]
        exact ⟨h1, fun h => absurd hone.1 h⟩
      | park _ hl => have := look_none.1 hl; exact ⟨by simp [hone.1, hone.2], fun _ => this⟩
      | resume hw hl =>
        simp only [(look_some hl).2.2.1]
        rw [hw] at h1
        simp only [List.length_append, List.length_cons] at h1 ⊢
        refine ⟨by omega, fun h => ?_⟩
        exact absurd (List.length_eq_zero_iff.1 (by omega)) h
      | repark hw hl =>
        rw [hw] at h1
        simp only [List.length_append, List.length_cons, List.length_nil] at h1 ⊢
        have := look_none.1 hl
        exact ⟨by omega, fun _ => this⟩
      | close hc => cases hsim
      | _ => exact ⟨h1, h2⟩
  exact (gen h ⟨by simp, fun h => absurd rfl h⟩).2

/-- C89: `Close` does not wake a reader that waits: the buffer is closed, and it keeps waiting, whatever happens, as long as nobody calls `SetReadClosed`. -/
theorem C89_close_violated (who size : Nat) (hs : 0 < size) :
    ∃ b : Buf α, Run {} [.park who size, .close true] b ∧ b.closed = true ∧ (who, size) ∈ b.parked ∧
      ∀ tr b', Run b tr b' → (∀ e ∈ tr, e ≠ .setReadClosed) → (who, size) ∈ b'.parked := by
  refine ⟨{ closed := true, parked := [(who, size)] }, .cons (.park hs rfl) (.cons (.close rfl) (.nil _)), rfl, List.mem_singleton.2 rfl, fun tr b' h hn => ?_⟩
  have gen : ∀ {b b' : Buf α} {tr : List (Ev α)}, Run b tr b' → (∀ e ∈ tr, e ≠ .setReadClosed) → b.closed = true → (who, size) ∈ b.parked → (who, size) ∈ b'.parked := by
    intro b b' tr h
    induction h with
    | nil b => exact fun _ _ h => h
    | cons hs _ ih =>
      intro hn hc hm
      have hn' := fun e he => hn e (List.mem_cons_of_mem _ he)
      refine ih hn' ((step_closed hs).2 (Or.inl hc)) ?_
      cases hs with
      | append hc' _ => rw [hc] at hc'; cases hc'
      | setReadClosed => exact absurd rfl (hn _ (List.mem_cons_self ..))
      | read _ hl => rw [(look_some hl).2.2.1]; exact hm
      | resume _ hl => simp only [(look_some hl).2.2.1]; exact hm
      | park _ _ => exact List.mem_append_left _ hm
      | repark _ _ => exact List.mem_append_left _ hm
      | _ => exact hm
  exact gen h hn rfl (List.mem_singleton.2 rfl)

/-- C89: and with two readers one may be left waiting though there is something to read: the other took only a part of the chunk that was appended. -/
theorem C89_readers_violated (a c : α) : ∃ b : Buf α, Run {} [.park 0 1, .park 1 1, .append [a, c] (some (0, 1)), .resume 0 1 (.data [a])] b ∧
    b.parked = [(1, 1)] ∧ b.woken = [] ∧ b.toRead = [[c]] := by
  refine ⟨⟨false, [[c]], [], [(1, 1)], []⟩, ?_, rfl, rfl, rfl⟩
  refine .cons (.park (by omega) rfl) (.cons (.park (by omega) rfl) (.cons (.append (l := []) (l' := [(1, 1)]) rfl rfl) (.cons ?_ (.nil _))))
  exact Step.resume (l := []) (l' := []) (b' := ⟨false, [[c]], [], [(1, 1)], [(0, 1)]⟩) rfl rfl

/-- C64: two chunks, read with buffers of 2 and 5, and then EOF. -/
example : ∃ b : Buf Nat, Run {} [.append [1, 2, 3] none, .append [4] none, .read 0 2 (.data [1, 2]), .read 0 5 (.data [3]), .setReadClosed, .read 0 5 (.data [4]), .read 0 5 .eof] b :=
  ⟨_, .cons (.appendNone rfl rfl) (.cons (.appendNone rfl rfl) (.cons (.read (by omega) rfl) (.cons (.read (by omega) rfl) (.cons .setReadClosed
    (.cons (.read (by omega) rfl) (.cons (.read (by omega) rfl) (.nil _)))))))⟩

end Verif.TestIO

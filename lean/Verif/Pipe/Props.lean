import Verif.Pipe.Model
/-!
# `enc.Pipe`: properties (C47)
-/
set_option autoImplicit false
namespace Verif.Pipe

variable {α : Type}

theorem other_ne (e : End) : e.other ≠ e := by cases e <;> decide

theorem recv_other (p : Pipes α) (e : End) : p.recv e.other = p.send e := by cases e <;> rfl

theorem run_append {p p' : Pipes α} {tr tr' : List (Ev α)} (h : Run p (tr ++ tr') p') : ∃ m, Run p tr m ∧ Run m tr' p' := by
  induction tr generalizing p with
  | nil => exact ⟨p, .nil _, h⟩
  | cons e tr ih =>
    cases h with
    | cons hs h =>
      obtain ⟨m, h1, h2⟩ := ih h
      exact ⟨m, .cons hs h1, h2⟩

/-- One step, seen from the channel an end sends to. -/
theorem step_chan {p p' : Pipes α} {ev : Ev α} (hs : Step p ev p') (e : End) :
    (p'.send e).cap = (p.send e).cap ∧ ev.got e.other ++ (p'.send e).buf = (p.send e).buf ++ ev.wrote e ∧
    ((p.send e).buf.length ≤ (p.send e).cap → (p'.send e).buf.length ≤ (p'.send e).cap) ∧
    ((p.send e).closed = true → (p'.send e).closed = true ∧ ev.wrote e = []) := by
  cases hs with
  | @write e' n h1 h2 => cases e <;> cases e' <;> simp_all [Pipes.send, Pipes.setSend, Ev.got, Ev.wrote] <;> omega
  | @pass e' n h1 h2 => cases e <;> cases e' <;> simp_all [Pipes.send, Ev.got, Ev.wrote, End.other]
  | @read e' n l h => cases e <;> cases e' <;> simp_all [Pipes.send, Pipes.recv, Pipes.setRecv, Ev.got, Ev.wrote, End.other] <;> omega
  | @close e' => cases e <;> cases e' <;> simp_all [Pipes.send, Pipes.setSend, Ev.got, Ev.wrote]
  | _ => simp [Ev.got, Ev.wrote]

theorem run_chan {p p' : Pipes α} {tr : List (Ev α)} (h : Run p tr p') (e : End) :
    (p'.send e).cap = (p.send e).cap ∧ tr.flatMap (Ev.got e.other) ++ (p'.send e).buf = (p.send e).buf ++ tr.flatMap (Ev.wrote e) ∧
    ((p.send e).buf.length ≤ (p.send e).cap → (p'.send e).buf.length ≤ (p'.send e).cap) ∧
    ((p.send e).closed = true → (p'.send e).closed = true ∧ tr.flatMap (Ev.wrote e) = []) := by
  induction h with
  | nil p => simp
  | cons hs _ ih =>
    obtain ⟨s1, s2, s3, s4⟩ := step_chan hs e
    obtain ⟨i1, i2, i3, i4⟩ := ih
    refine ⟨i1.trans s1, ?_, fun h => i3 (s3 h), fun h => ?_⟩
    · simp only [List.flatMap_cons, List.append_assoc, i2]
      rw [← List.append_assoc, s2, List.append_assoc]
    · obtain ⟨a, b⟩ := s4 h
      obtain ⟨c, d⟩ := i4 a
      exact ⟨c, by simp [b, d]⟩

/-- C47: in each direction what was read, followed by what is in the buffer, is what was written, in order: nothing is lost, doubled or mixed up. And never more than `n` are
waiting in the buffer. -/
theorem C47_fifo (n : Nat) (tr : List (Ev α)) (p : Pipes α) (h : Run (newPipe n) tr p) (e : End) :
    tr.flatMap (Ev.got e.other) ++ (p.send e).buf = tr.flatMap (Ev.wrote e) ∧ (p.send e).buf.length ≤ n := by
  obtain ⟨h1, h2, h3, _⟩ := run_chan h e
  have hb : ((newPipe n : Pipes α).send e).buf = [] := by cases e <;> rfl
  have hc : ((newPipe n : Pipes α).send e).cap = n := by cases e <;> rfl
  rw [hb] at h2 h3
  refine ⟨by simpa using h2, ?_⟩
  rw [← hc, ← h1]
  exact h3 (by simp)

/-- C47: after `Close` no write at that end succeeds; the other end reads what was written before, and gets EOF only after that. -/
theorem C47_closed (n : Nat) (tr tr' : List (Ev α)) (p : Pipes α) (e : End) (h : Run (newPipe n) (tr ++ .close e :: tr') p) :
    tr'.flatMap (Ev.wrote e) = [] ∧ tr.flatMap (Ev.got e.other) ++ tr'.flatMap (Ev.got e.other) ++ (p.send e).buf = tr.flatMap (Ev.wrote e) := by
  have hf := (C47_fifo n _ p h e).1
  obtain ⟨m, h1, h2⟩ := run_append h
  cases h2 with
  | cons hs h2 =>
    cases hs with
    | close =>
      have := (run_chan h2 e).2.2.2 (by cases e <;> rfl)
      refine ⟨this.2, ?_⟩
      simpa [Ev.got, Ev.wrote, this.2] using hf

/-- C47: EOF comes only if the other end closed, and everything it wrote was read; from then on nothing is read. -/
theorem C47_eof (n : Nat) (tr tr' : List (Ev α)) (p : Pipes α) (e : End) (h : Run (newPipe n) (tr ++ .eof e.other :: tr') p) :
    .close e ∈ tr ∧ tr.flatMap (Ev.got e.other) = tr.flatMap (Ev.wrote e) ∧ tr'.flatMap (Ev.got e.other) = [] := by
  obtain ⟨m, h1, h2⟩ := run_append h
  have hf := (C47_fifo n _ m h1 e).1
  cases h2 with
  | cons hs h2 =>
    cases hs with
    | eof hb hc =>
      rw [recv_other] at hb hc
      rw [hb, List.append_nil] at hf
      obtain ⟨_, r2, _, r4⟩ := run_chan h2 e
      have hw := (r4 hc).2
      rw [hb, hw] at r2
      refine ⟨?_, hf, (List.append_eq_nil_iff.1 r2).1⟩
      -- closed only by `Close`
      have cl : ∀ {p p' : Pipes α} {tr : List (Ev α)}, Run p tr p' → (p'.send e).closed = true → (p.send e).closed = true ∨ .close e ∈ tr := by
        intro p p' tr h
        induction h with
        | nil p => exact Or.inl
        | @cons p p' p'' ev tr hs _ ih =>
          intro h
          rcases ih h with h | h
          · have : (p.send e).closed = true ∨ ev = .close e := by
              cases hs with
              | @write e' n h1 h2 => cases e <;> cases e' <;> simp_all [Pipes.send, Pipes.setSend]
              | @read e' n l h => cases e <;> cases e' <;> simp_all [Pipes.send, Pipes.recv, Pipes.setRecv]
              | @close e' => cases e <;> cases e' <;> simp_all [Pipes.send, Pipes.setSend]
              | _ => exact Or.inl h
            rcases this with h | h
            · exact Or.inl h
            · rw [h]; exact Or.inr (List.mem_cons_self ..)
          · exact Or.inr (List.mem_cons_of_mem _ h)
      rcases cl h1 hc with h | h
      · cases e <;> cases h
      · exact h

/-- C47: when calls can return. A write can succeed only if that end is open and there is room, or nothing in the buffer and somebody reading; on a closed end it returns
`ErrClosedPipe` (or the context's error); a read finds a node, or EOF, unless the buffer is empty and the other end open; `Close` never waits. -/
theorem C47_ready (n : Nat) (tr : List (Ev α)) (p : Pipes α) (h : Run (newPipe n) tr p) (e : End) (x : α) :
    ((∃ p', Step p (.write e x) p') ↔ (p.send e).closed = false ∧ (p.send e).buf.length < n) ∧
    ((∃ p', Step p (.pass e x) p') ↔ (p.send e).closed = false ∧ (p.send e).buf = []) ∧
    ((∃ p', Step p (.writeClosed e x) p') ↔ (p.send e).closed = true) ∧
    ((∃ y p', Step p (.read e y) p') ↔ (p.recv e).buf ≠ []) ∧
    ((∃ p', Step p (.eof e) p') ↔ (p.recv e).buf = [] ∧ (p.recv e).closed = true) ∧
    ∃ p', Step p (.close e) p' := by
  have hc : (p.send e).cap = n := by rw [(run_chan h e).1]; cases e <;> rfl
  refine ⟨⟨fun ⟨p', hs⟩ => ?_, fun ⟨h1, h2⟩ => ⟨_, .write h1 (by rw [hc]; exact h2)⟩⟩, ⟨fun ⟨p', hs⟩ => ?_, fun ⟨h1, h2⟩ => ⟨_, .pass h1 h2⟩⟩,
    ⟨fun ⟨p', hs⟩ => ?_, fun h1 => ⟨_, .writeClosed h1⟩⟩, ⟨fun ⟨y, p', hs⟩ => ?_, fun h1 => ?_⟩, ⟨fun ⟨p', hs⟩ => ?_, fun ⟨h1, h2⟩ => ⟨_, .eof h1 h2⟩⟩, ⟨_, .close⟩⟩
  · cases hs with | write h1 h2 => exact ⟨h1, by rw [hc] at h2; exact h2⟩
  · cases hs with | pass h1 h2 => exact ⟨h1, h2⟩
  · cases hs with | writeClosed h1 => exact h1
  · cases hs with | read h1 => rw [h1]; exact fun h => by cases h
  · cases hb : (p.recv e).buf with
    | nil => exact absurd hb h1
    | cons y l => exact ⟨y, _, .read hb⟩
  · cases hs with | eof h1 h2 => exact ⟨h1, h2⟩

/-- C47: closing again changes nothing. -/
theorem C47_close_again (p p' p'' : Pipes α) (e : End) (h : Step p (.close e) p') (h' : Step p' (.close e) p'') : p'' = p' := by
  cases h with
  | close => cases h' with
    | close => cases e <;> rfl

/-- C47: two nodes through a buffer of one, close, and EOF; the other direction stays open. -/
example : ∃ p : Pipes Nat, Run (newPipe 1) [.write .a 1, .read .b 1, .pass .a 2, .write .a 3, .close .a, .writeClosed .a 4, .close .a, .read .b 3, .eof .b, .write .b 5] p ∧
    p.ba.buf = [5] :=
  ⟨_, .cons (.write rfl (by decide)) (.cons (.read rfl) (.cons (.pass rfl rfl) (.cons (.write rfl (by decide)) (.cons .close (.cons (.writeClosed rfl) (.cons .close
    (.cons (.read rfl) (.cons (.eof rfl rfl) (.cons (.write rfl (by decide)) (.nil _)))))))))), rfl⟩

end Verif.Pipe

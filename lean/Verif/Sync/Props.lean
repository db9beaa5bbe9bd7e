import Verif.Sync.TryLockLemmas
/-!
# Properties of the timed `TryLock` (C15)
-/
set_option autoImplicit false
namespace Verif.Sync

/-- C15: no schedule makes any goroutine unlock an unlocked mutex, close a closed channel or send on one. -/
theorem C15_no_panic (as : List Act) (p : Panic) : Sys.init.exec as ≠ .error (.panic p) := by
  rcases exec_inv as _ inv_init with h | ⟨s, h, _⟩ <;> rw [h] <;> intro hc <;> cases hc

/-- C15: in every reachable state at most one party possesses the mutex, and it is locked exactly when somebody does. -/
theorem C15_mutual_exclusion (as : List Act) (s : Sys) (h : Sys.init.exec as = .ok s) :
    (∀ x y, s.holding x → s.holding y → x = y) ∧ (s.locked = true ↔ ∃ x, s.holding x) := by
  obtain ⟨o, hl, ha, hh⟩ := (reach_inv h).own
  have key : ∀ x, s.holding x ↔ o = some x := by
    intro x
    cases x with
    | agent a => rw [← owns_iff]; exact ha a
    | helper h => exact hh h
  constructor
  · intro x y hx hy
    have h1 := (key x).1 hx
    have h2 := (key y).1 hy
    rw [h1] at h2; injection h2
  · rw [hl]
    constructor
    · intro ho; obtain ⟨x, hx⟩ := Option.isSome_iff_exists.1 ho; exact ⟨x, (key x).2 hx⟩
    · rintro ⟨x, hx⟩; rw [(key x).1 hx]; rfl

/-- C15: a `TryLock` that returns true returns with the mutex locked and possessed by its caller. -/
theorem C15_true_means_held (as : List Act) (s s' : Sys) (h : Sys.init.exec as = .ok s) (a hn : Nat)
    (hpc : s.agents a = .closing hn true) (hret : s.step (.close a) = .ok s') : s'.agents a = .holds ∧ s'.locked = true := by
  obtain ⟨o, hl, ha, hh⟩ := (reach_inv h).own
  have hc := ((reach_inv h).clo a hn true hpc).2.1
  simp only [Sys.step, hpc, hc, Bool.false_eq_true, if_false, if_true] at hret
  injection hret with hret
  subst hret
  refine ⟨by simp, ?_⟩
  have := (ha a).1 (by rw [hpc]; rfl)
  simp only
  rw [hl, this]; rfl

/-- C15: whoever possesses the mutex keeps it through every step of every other party: only its own `Unlock` ends it. -/
theorem C15_held_until_unlock (as : List Act) (s s' : Sys) (h : Sys.init.exec as = .ok s) (a : Nat) (hpc : s.agents a = .holds)
    (act : Act) (hact : act ≠ .unlock a) (hstep : s.step act = .ok s') : s'.agents a = .holds ∧ s'.locked = true := by
  have inv := reach_inv h
  have hinv' : Inv s' := by
    rcases step_inv s inv act with h' | ⟨s1, h', inv1⟩
    · rw [h'] at hstep; cases hstep
    · rw [h'] at hstep; injection hstep with hstep; rwa [hstep] at inv1
  have hold : s'.agents a = .holds := by
    cases act <;> simp only [Sys.step] at hstep <;> repeat' (split at hstep)
    all_goals first
      | (injection hstep with hstep; subst hstep; simp only [upd]; grind)
      | cases hstep
  refine ⟨hold, ?_⟩
  obtain ⟨o, hl, ha, _⟩ := hinv'.own
  have := (ha a).1 (by rw [hold]; rfl)
  rw [hl, this]; rfl

/-- C15: a `TryLock` that returns false leaves its caller without the mutex, and whenever its helper acquires the mutex later
(or has it at that moment) the helper's own next two steps are enabled and release it. -/
theorem C15_false_releases (as : List Act) (s : Sys) (h : Sys.init.exec as = .ok s) (hn : Nat)
    (hret : (s.helpers hn).closed = true) (hrecv : (s.helpers hn).pc = .recv) :
    ∃ s', s.exec [.hclosed hn, .hunlock hn] = .ok s' ∧ s'.locked = false ∧ (s'.helpers hn).pc = .exited := by
  obtain ⟨o, hl, ha, hh⟩ := (reach_inv h).own
  have hlk : s.locked = true := by rw [hl, (hh hn).1 (Or.inl hrecv)]; rfl
  refine ⟨_, by simp only [Sys.exec, Sys.step, hrecv, hret, upd_same, hlk, if_true]; rfl, rfl, by simp⟩

/-- C15: returning false closes the channel of the helper and leaves the caller idle. -/
theorem C15_false_closes (as : List Act) (s s' : Sys) (h : Sys.init.exec as = .ok s) (a hn : Nat)
    (hpc : s.agents a = .closing hn false) (hret : s.step (.close a) = .ok s') :
    s'.agents a = .idle ∧ (s'.helpers hn).closed = true ∧ ¬ s'.holding (.agent a) := by
  have hc := ((reach_inv h).clo a hn false hpc).2.1
  simp only [Sys.step, hpc, hc, Bool.false_eq_true, if_false] at hret
  injection hret with hret
  subst hret
  refine ⟨by simp, by simp, ?_⟩
  simp [Sys.holding]

/-- C15: the mutex is never lost: whenever it is locked, either an agent possesses it, or at most three steps of `TryLock`
callers and helpers, all enabled, release it or hand it to an agent. -/
theorem C15_never_lost (as : List Act) (s : Sys) (h : Sys.init.exec as = .ok s) (hl : s.locked = true) :
    (∃ a, s.holding (.agent a)) ∨
    ∃ steps s', steps.length ≤ 3 ∧ s.exec steps = .ok s' ∧ (s'.locked = false ∨ ∃ a, s'.holding (.agent a)) := by
  have inv := reach_inv h
  obtain ⟨x, hx⟩ := (C15_mutual_exclusion as s h).2.1 hl
  cases x with
  | agent a => exact Or.inl ⟨a, hx⟩
  | helper hn =>
    right
    simp only [Sys.holding] at hx
    rcases hx with hr | hu
    · cases hc : (s.helpers hn).closed with
      | true =>
        obtain ⟨s', h1, h2, _⟩ := C15_false_releases as s h hn hc hr
        exact ⟨_, s', by simp, h1, Or.inl h2⟩
      | false =>
        obtain ⟨a, ha⟩ := inv.caller hn hc
        cases hpa : s.agents a with
        | sel h' =>
          rw [hpa] at ha; simp only [APC.ref, Option.some.injEq] at ha; subst ha
          refine ⟨[.send a], _, by simp, by simp only [Sys.exec, Sys.step, hpa, hc, hr]; rfl, Or.inr ⟨a, ?_⟩⟩
          simp [Sys.holding]
        | closing h' r =>
          rw [hpa] at ha; simp only [APC.ref, Option.some.injEq] at ha; subst ha
          cases r with
          | true =>
            have := (inv.clo a h' true hpa).2.2
            simp [hr] at this
          | false =>
            refine ⟨[.close a, .hclosed h', .hunlock h'], _, by simp,
              by simp only [Sys.exec, Sys.step, hpa, hc, upd_same, hr, hl, Bool.false_eq_true, if_false, if_true]; rfl, Or.inl rfl⟩
        | idle => rw [hpa] at ha; cases ha
        | locking => rw [hpa] at ha; cases ha
        | holds => rw [hpa] at ha; cases ha
    · exact ⟨[.hunlock hn], _, by simp, by simp only [Sys.exec, Sys.step, hu, hl, if_true]; rfl, Or.inl rfl⟩

/-! ### concrete schedules -/

/-- Agent 0 locks; agent 1's TryLock times out; 0 unlocks; the abandoned helper gets the mutex and releases it;
agent 2's TryLock then succeeds. -/
def sample : List Act :=
  [.lock 0, .acquire 0, .try 1, .timeout 1, .close 1, .unlock 0, .hacquire 0, .try 2, .hclosed 0, .hunlock 0,
   .hacquire 1, .send 2, .hexit 1, .close 2]

example : ∃ s, Sys.init.exec sample = .ok s ∧ s.agents 1 = .idle ∧ s.agents 2 = .holds ∧ s.locked = true := ⟨_, rfl, rfl, rfl, rfl⟩

/-- The hypotheses of `C15_false_releases` are met on the way. -/
example : ∃ s, Sys.init.exec (sample.take 8) = .ok s ∧ (s.helpers 0).closed = true ∧ (s.helpers 0).pc = .recv := ⟨_, rfl, rfl, rfl⟩

end Verif.Sync

/-!
# `MetricsMutex` (utils/sync/mutex.go L16-39) and what it reports (C131)

* Any number of goroutines; the statements of `Lock` and `Unlock` are steps, in any interleaving, and time passes between them.
* `sync.Mutex` is a flag: `Lock` waits until it is clear, `Unlock` of a clear one ends the program.
* A place in the source (`runtime.Caller`) is a number, and so is a time.
* What really happened is kept along with what is logged, for the statements: the place `Lock` was called from, when (`t0`), when the lock was taken (`took`),
  when that was noted (`stamp`), and when `Unlock` was called (`called`).
-/
set_option autoImplicit false
namespace Verif.Sync.Metrics

/-- A line of the log, with the duration and the holder it shows, and then what really happened, to goroutine `i`. utils/sync/mutex.go L30, L38. -/
inductive Line where
  | lock (dt holder : Nat) (i place t0 took stamp : Nat)
  | unlock (dt holder : Nat) (i place took stamp called : Nat)
deriving DecidableEq

/-- Where a goroutine is, with its local variables. utils/sync/mutex.go L22-39. -/
inductive Pc where
  | idle
  /-- in `Lock`, before `m.m.Lock()` (L26) -/
  | waits (place t0 : Nat)
  /-- after `m.m.Lock()` -/
  | got (place t0 took : Nat)
  /-- after `m.lock = time.Now()` (L27) -/
  | timed (place t0 took stamp : Nat)
  /-- after `m.holder = holder` (L28) -/
  | named (place t0 took stamp : Nat)
  /-- `Lock` returned -/
  | holds (place took stamp : Nat)
  /-- in `Unlock`, after L34 -/
  | read (dt place took stamp called : Nat)
  /-- after L35 -/
  | ready (dt holder place took stamp called : Nat)
  /-- after `m.m.Unlock()` (L36) -/
  | left (dt holder place took stamp called : Nat)
deriving DecidableEq

/-- The mutex (L16-20), the clock, the goroutines and the log; `fatal`: the program was ended. -/
structure St where
  locked : Bool := false
  lock : Nat := 0
  holder : Nat := 0
  now : Nat := 0
  pc : Nat → Pc := fun _ => .idle
  log : List Line := []
  fatal : Bool := false

/-- What can happen: time passes, goroutine `i` calls `Lock` from a place, calls `Unlock`, or executes its next statement. utils/sync/mutex.go L22-39. -/
inductive Act where
  | tick
  | callLock (i place : Nat)
  | callUnlock (i : Nat)
  | next (i : Nat)
deriving DecidableEq

/-- Goroutine `i` goes on. utils/sync/mutex.go L22-39. -/
def St.put (s : St) (i : Nat) (p : Pc) : St := { s with pc := fun j => if j = i then p else s.pc j }

/-- The next statement of goroutine `i`, which is at the given one. utils/sync/mutex.go L26-30, L35-38. -/
def advance (s : St) (i : Nat) : Pc → Option St
  | .idle | .holds _ _ _ => none
  | .waits place t0 => if s.locked then none else some { s.put i (.got place t0 s.now) with locked := true }
  | .got place t0 took => some { s.put i (.timed place t0 took s.now) with lock := s.now }
  | .timed place t0 took stamp => some { s.put i (.named place t0 took stamp) with holder := place }
  | .named place t0 took stamp => some { s.put i (.holds place took stamp) with log := s.log ++ [.lock (s.lock - t0) place i place t0 took stamp] }
  | .read dt place took stamp called => some (s.put i (.ready dt s.holder place took stamp called))
  | .ready dt holder place took stamp called =>
    if s.locked then some { s.put i (.left dt holder place took stamp called) with locked := false } else some { s with fatal := true }
  | .left dt holder place took stamp called => some { s.put i .idle with log := s.log ++ [.unlock dt holder i place took stamp called] }

/-- One step. `Unlock` is called by the goroutine that has the lock. utils/sync/mutex.go L22-39. -/
def step (s : St) : Act → Option St
  | .tick => some { s with now := s.now + 1 }
  | .callLock i place =>
    match s.pc i with
    | .idle => some (s.put i (.waits place s.now))
    | _ => none
  | .callUnlock i =>
    match s.pc i with
    | .holds place took stamp => some (s.put i (.read (s.now - s.lock) place took stamp s.now))
    | _ => none
  | .next i => advance s i (s.pc i)

/-- Several steps. utils/sync/mutex.go L22-39. -/
def run : List Act → St → Option St
  | [], s => some s
  | a :: l, s => (step s a).bind (run l)

/-! ### what should hold -/

/-- Between taking the lock and giving it back. -/
def Pc.inside : Pc → Bool
  | .idle | .waits _ _ | .left .. => false
  | _ => true

/-- A line tells the truth: it names the place `Lock` was called from; the time it waited is counted from its call, and the time it was held ends with the
call of `Unlock`; both are measured from when the lock had been taken. -/
def Truth : Line → Prop
  | .lock dt holder _ place t0 took stamp => holder = place ∧ t0 + dt = stamp ∧ t0 ≤ took ∧ took ≤ stamp
  | .unlock dt holder _ place took stamp called => holder = place ∧ stamp + dt = called ∧ took ≤ stamp

/-! ### the invariant -/

/-- What the mutex remembers is about the goroutine inside. -/
def Agrees (s : St) : Pc → Prop
  | .idle => True
  | .waits _ t0 => t0 ≤ s.now
  | .got _ t0 took => t0 ≤ took ∧ took ≤ s.now
  | .timed _ t0 took stamp => s.lock = stamp ∧ stamp ≤ s.now ∧ t0 ≤ took ∧ took ≤ stamp
  | .named place t0 took stamp => s.lock = stamp ∧ s.holder = place ∧ stamp ≤ s.now ∧ t0 ≤ took ∧ took ≤ stamp
  | .holds place took stamp => s.lock = stamp ∧ s.holder = place ∧ stamp ≤ s.now ∧ took ≤ stamp
  | .read dt place took stamp called => s.holder = place ∧ stamp + dt = called ∧ took ≤ stamp
  | .ready dt holder place took stamp called => holder = place ∧ stamp + dt = called ∧ took ≤ stamp
  | .left dt holder place took stamp called => holder = place ∧ stamp + dt = called ∧ took ≤ stamp

/-- The invariant. -/
structure Inv (s : St) : Prop where
  one : ∀ i j, (s.pc i).inside = true → (s.pc j).inside = true → i = j
  locked : s.locked = true ↔ ∃ i, (s.pc i).inside = true
  agrees : ∀ i, Agrees s (s.pc i)
  log : ∀ e ∈ s.log, Truth e
  fatal : s.fatal = false

/-- A goroutine outside does not depend on what the mutex remembers. -/
theorem agrees_outside {s s' : St} {p : Pc} (hp : p.inside = false) (hn : s'.now = s.now) (h : Agrees s p) : Agrees s' p := by
  cases p with
  | idle => trivial
  | waits _ _ => simp only [Agrees, hn] at h ⊢; exact h
  | left _ _ _ _ _ _ => exact h
  | _ => cases hp

theorem agrees_same {s s' : St} {p : Pc} (hk : s'.lock = s.lock) (hh : s'.holder = s.holder) (hn : s.now ≤ s'.now) (h : Agrees s p) : Agrees s' p := by
  cases p <;> simp only [Agrees, hk, hh] at h ⊢ <;> omega

/-- A step of `i` that keeps it on its side. -/
theorem inv_keep {s s' : St} (h : Inv s) (i : Nat) (p : Pc) (hpp : p.inside = (s.pc i).inside) (hpc : s'.pc = fun j => if j = i then p else s.pc j)
    (hl : s'.locked = s.locked) (hn : s'.now = s.now) (hf : s'.fatal = s.fatal) (hlog : ∀ e ∈ s'.log, Truth e) (ha : Agrees s' p)
    (hk : p.inside = true ∨ (s'.lock = s.lock ∧ s'.holder = s.holder)) : Inv s' := by
  have hin : ∀ j, (s'.pc j).inside = (s.pc j).inside := by
    intro j
    rw [hpc]
    by_cases hji : j = i
    · simp only [hji, if_true, hpp]
    · simp only [if_neg hji]
  refine ⟨fun a b ha hb => h.one a b (by rw [← hin]; exact ha) (by rw [← hin]; exact hb), ?_, ?_, hlog, hf.trans h.fatal⟩
  · rw [hl, h.locked]; exact exists_congr fun j => by rw [hin]
  · intro j
    rw [hpc]
    by_cases hji : j = i
    · simp only [hji, if_true]; exact ha
    · simp only [if_neg hji]
      have hj := h.agrees j
      rcases hk with hk | ⟨hk, hh⟩
      · refine agrees_outside ?_ hn hj
        cases hc : (s.pc j).inside with
        | false => rfl
        | true => exact absurd (h.one j i hc (hpp ▸ hk)) hji
      · exact agrees_same hk hh (Nat.le_of_eq hn.symm) hj

theorem inv_step {s s' : St} (a : Act) (h : Inv s) (hs : step s a = some s') : Inv s' := by
  cases a with
  | tick =>
    simp only [step] at hs
    injection hs with hs; subst hs
    exact ⟨h.one, h.locked, fun i => agrees_same (s := s) rfl rfl (Nat.le_succ s.now) (h.agrees i), h.log, h.fatal⟩
  | callLock i place =>
    simp only [step] at hs
    split at hs
    · rename_i hc
      injection hs with hs; subst hs
      exact inv_keep h i (.waits place s.now) (by rw [hc]; rfl) rfl rfl rfl rfl h.log (Nat.le_refl s.now) (Or.inr ⟨rfl, rfl⟩)
    · cases hs
  | callUnlock i =>
    simp only [step] at hs
    split at hs
    · rename_i place took stamp hc
      injection hs with hs; subst hs
      have hi := h.agrees i
      rw [hc] at hi
      obtain ⟨h1, h2, h3, h4⟩ := hi
      exact inv_keep h i (.read (s.now - s.lock) place took stamp s.now) (by rw [hc]; rfl) rfl rfl rfl rfl h.log
        ⟨h2, by show stamp + (s.now - s.lock) = s.now; omega, h4⟩ (Or.inl rfl)
    · cases hs
  | next i =>
    have hi := h.agrees i
    have hin : ∀ p, s.pc i = p → (s.pc i).inside = p.inside := fun p hp => by rw [hp]
    simp only [step] at hs
    cases hc : s.pc i with
    | idle => rw [hc] at hs; cases hs
    | holds place took stamp => rw [hc] at hs; cases hs
    | waits place t0 =>
      rw [hc] at hs hi
      simp only [advance] at hs
      split at hs
      · cases hs
      · rename_i hl
        injection hs with hs; subst hs
        have hno : ∀ j, (s.pc j).inside = false := by
          intro j
          cases hj : (s.pc j).inside with
          | false => rfl
          | true => exact absurd (h.locked.2 ⟨j, hj⟩) hl
        have hone : ∀ j, (if j = i then Pc.got place t0 s.now else s.pc j).inside = true → j = i := by
          intro j hj
          by_cases hji : j = i
          · exact hji
          · rw [if_neg hji, hno j] at hj; cases hj
        refine ⟨fun a b ha hb => (hone a ha).trans (hone b hb).symm, ⟨fun _ => ⟨i, by simp [St.put, Pc.inside]⟩, fun _ => rfl⟩, ?_, h.log, h.fatal⟩
        intro j
        show Agrees _ (if j = i then Pc.got place t0 s.now else s.pc j)
        by_cases hji : j = i
        · rw [if_pos hji]; exact ⟨hi, Nat.le_refl _⟩
        · rw [if_neg hji]; exact agrees_same (s := s) rfl rfl (Nat.le_refl _) (h.agrees j)
    | got place t0 took =>
      rw [hc] at hs hi
      injection hs with hs; subst hs
      exact inv_keep h i (.timed place t0 took s.now) (by rw [hc]; rfl) rfl rfl rfl rfl h.log ⟨rfl, Nat.le_refl _, hi.1, hi.2⟩ (Or.inl rfl)
    | timed place t0 took stamp =>
      rw [hc] at hs hi
      injection hs with hs; subst hs
      exact inv_keep h i (.named place t0 took stamp) (by rw [hc]; rfl) rfl rfl rfl rfl h.log ⟨hi.1, rfl, hi.2⟩ (Or.inl rfl)
    | named place t0 took stamp =>
      rw [hc] at hs hi
      injection hs with hs; subst hs
      obtain ⟨h1, h2, h3, h4, h5⟩ := hi
      refine inv_keep h i (.holds place took stamp) (by rw [hc]; rfl) rfl rfl rfl rfl ?_ ⟨h1, h2, h3, h5⟩ (Or.inl rfl)
      intro e he
      rcases List.mem_append.1 he with he | he
      · exact h.log e he
      · rcases List.mem_singleton.1 he with rfl
        exact ⟨rfl, by show t0 + (s.lock - t0) = stamp; omega, h4, h5⟩
    | read dt place took stamp called =>
      rw [hc] at hs hi
      injection hs with hs; subst hs
      exact inv_keep h i (.ready dt s.holder place took stamp called) (by rw [hc]; rfl) rfl rfl rfl rfl h.log ⟨hi.1, hi.2⟩ (Or.inl rfl)
    | ready dt holder place took stamp called =>
      rw [hc] at hs hi
      simp only [advance, h.locked.2 ⟨i, by rw [hc]; rfl⟩, if_true] at hs
      injection hs with hs; subst hs
      have hno : ∀ j, (if j = i then Pc.left dt holder place took stamp called else s.pc j).inside = true → False := by
        intro j hj
        by_cases hji : j = i
        · rw [if_pos hji] at hj; cases hj
        · rw [if_neg hji] at hj; exact hji (h.one j i hj (by rw [hc]; rfl))
      refine ⟨fun a b ha _ => (hno a ha).elim, ⟨fun hf => (by cases hf), fun ⟨j, hj⟩ => (hno j hj).elim⟩, ?_, h.log, h.fatal⟩
      intro j
      show Agrees _ (if j = i then Pc.left dt holder place took stamp called else s.pc j)
      by_cases hji : j = i
      · rw [if_pos hji]; exact hi
      · rw [if_neg hji]; exact agrees_same (s := s) rfl rfl (Nat.le_refl _) (h.agrees j)
    | left dt holder place took stamp called =>
      rw [hc] at hs hi
      injection hs with hs; subst hs
      refine inv_keep h i .idle (by rw [hc]; rfl) rfl rfl rfl rfl ?_ trivial (Or.inr ⟨rfl, rfl⟩)
      intro e he
      rcases List.mem_append.1 he with he | he
      · exact h.log e he
      · rcases List.mem_singleton.1 he with rfl; exact hi

theorem inv_run : ∀ (l : List Act) (s s' : St), Inv s → run l s = some s' → Inv s'
  | [], s, s', h, hr => by injection hr with hr; subst hr; exact h
  | a :: l, s, s', h, hr => by
    simp only [run] at hr
    cases hs : step s a with
    | none => rw [hs] at hr; cases hr
    | some s1 => rw [hs] at hr; exact inv_run l s1 s' (inv_step a h hs) hr

theorem inv_init : Inv {} where
  one := fun _ _ h => by cases h
  locked := ⟨(fun h => by cases h), (fun ⟨_, h⟩ => by cases h)⟩
  agrees := fun _ => trivial
  log := fun _ h => by cases h
  fatal := rfl

/-! ### C131 -/

/-- However many goroutines use it, at most one is between taking the lock and giving it back, and `Unlock` never finds it unlocked. -/
theorem C131_exclusion (l : List Act) (s : St) (h : run l {} = some s) : (∀ i j, (s.pc i).inside = true → (s.pc j).inside = true → i = j) ∧ s.fatal = false :=
  ⟨(inv_run l {} s inv_init h).one, (inv_run l {} s inv_init h).fatal⟩

/-- Every line names the place that took the lock it is about, and its own times: never those of another goroutine. -/
theorem C131_reports (l : List Act) (s : St) (h : run l {} = some s) (e : Line) (he : e ∈ s.log) : Truth e := (inv_run l {} s inv_init h).log e he

/-- Nobody waits for ever for nothing: if a goroutine is in `Lock` or `Unlock`, some goroutine can go on, or has the lock and can give it back. -/
theorem C131_progress (l : List Act) (s : St) (h : run l {} = some s) (i : Nat) (hi : s.pc i ≠ .idle) :
    ∃ j s', step s (.next j) = some s' ∨ step s (.callUnlock j) = some s' := by
  have hv := inv_run l {} s inv_init h
  have inside : ∀ j, (s.pc j).inside = true → ∃ s', step s (.next j) = some s' ∨ step s (.callUnlock j) = some s' := by
    intro j hj
    cases hc : s.pc j with
    | idle => rw [hc] at hj; cases hj
    | waits _ _ => rw [hc] at hj; cases hj
    | left _ _ _ _ _ _ => rw [hc] at hj; cases hj
    | got _ _ _ => exact ⟨_, Or.inl (by simp only [step, hc, advance]; rfl)⟩
    | timed _ _ _ _ => exact ⟨_, Or.inl (by simp only [step, hc, advance]; rfl)⟩
    | named _ _ _ _ => exact ⟨_, Or.inl (by simp only [step, hc, advance]; rfl)⟩
    | holds _ _ _ => exact ⟨_, Or.inr (by simp only [step, hc]; rfl)⟩
    | read _ _ _ _ _ => exact ⟨_, Or.inl (by simp only [step, hc, advance]; rfl)⟩
    | ready _ _ _ _ _ _ => exact ⟨_, Or.inl (by simp only [step, hc, advance, hv.locked.2 ⟨j, hj⟩, if_true]; rfl)⟩
  cases hc : s.pc i with
  | idle => exact absurd hc hi
  | left _ _ _ _ _ _ => exact ⟨i, _, Or.inl (by simp only [step, hc, advance]; rfl)⟩
  | waits place t0 =>
    cases hl : s.locked with
    | true =>
      obtain ⟨j, hj⟩ := hv.locked.1 hl
      exact ⟨j, inside j hj⟩
    | false => exact ⟨i, _, Or.inl (by simp only [step, hc, advance, hl, Bool.false_eq_true, if_false]; rfl)⟩
  | got _ _ _ => exact ⟨i, inside i (by rw [hc]; rfl)⟩
  | timed _ _ _ _ => exact ⟨i, inside i (by rw [hc]; rfl)⟩
  | named _ _ _ _ => exact ⟨i, inside i (by rw [hc]; rfl)⟩
  | holds _ _ _ => exact ⟨i, inside i (by rw [hc]; rfl)⟩
  | read _ _ _ _ _ => exact ⟨i, inside i (by rw [hc]; rfl)⟩
  | ready _ _ _ _ _ _ => exact ⟨i, inside i (by rw [hc]; rfl)⟩

/-- What a line shows. -/
def Line.shown : Line → Bool × Nat × Nat
  | .lock dt holder .. => (true, dt, holder)
  | .unlock dt holder .. => (false, dt, holder)

/-- The steps of two goroutines, the second taking the lock before the first has written that it gave it back. -/
def crossed (p q : Nat) : List Act :=
  [.callLock 1 p, .next 1, .next 1, .next 1, .next 1, .callUnlock 1, .next 1, .next 1, .callLock 2 q, .next 2, .next 2, .next 2, .next 2, .next 1,
    .callUnlock 2, .next 2, .next 2, .next 2]

/-- Two goroutines, 1 and 2. -/
def two (a b : Pc) : Nat → Pc := fun j => if j = 1 then a else if j = 2 then b else .idle

theorem two_idle : ({} : St) = ⟨false, 0, 0, 0, two .idle .idle, [], false⟩ := by
  simp only [St.mk.injEq, true_and, and_true]
  funext j
  simp [two]

theorem put_one (l : Bool) (k h n : Nat) (a b c : Pc) (g : List Line) (f : Bool) : St.put ⟨l, k, h, n, two a b, g, f⟩ 1 c = ⟨l, k, h, n, two c b, g, f⟩ := by
  simp only [St.put, St.mk.injEq, true_and, and_true]
  funext j
  simp only [two]
  split <;> rfl

theorem put_two (l : Bool) (k h n : Nat) (a b c : Pc) (g : List Line) (f : Bool) : St.put ⟨l, k, h, n, two a b, g, f⟩ 2 c = ⟨l, k, h, n, two a c, g, f⟩ := by
  simp only [St.put, St.mk.injEq, true_and, and_true]
  funext j
  simp only [two]
  split
  · rename_i e; subst e; simp
  · rfl

theorem two_one (a b : Pc) : two a b 1 = a := rfl

theorem two_two (a b : Pc) : two a b 2 = b := rfl

/-- A run with one more step before it. -/
theorem run_step {a : Act} {l : List Act} {s t : St} {r : Option St} (h : step s a = some t) (hr : run l t = r) : run (a :: l) s = r := by
  rw [run, h, Option.bind_some, hr]

/-- C131 is violated: the lines are not in the order of what they report. `Unlock` writes its line after giving the lock back, so the next holder can be
reported before: the log shows the lock taken twice before it is given back. -/
theorem C131_order_violated (p q : Nat) : ∃ s, run (crossed p q) {} = some s ∧ s.log.map Line.shown = [(true, 0, p), (true, 0, q), (false, 0, p), (false, 0, q)] := by
  refine ⟨⟨false, 0, q, 0, two .idle .idle, [.lock 0 p 1 p 0 0 0, .lock 0 q 2 q 0 0 0, .unlock 0 p 1 p 0 0 0, .unlock 0 q 2 q 0 0 0], false⟩, ?_, rfl⟩
  rw [two_idle, crossed]
  refine run_step (t := ⟨false, 0, 0, 0, two (.waits p 0) .idle, [], false⟩) (by simp [step, advance, two_one, two_two, put_one, put_two]) ?_
  refine run_step (t := ⟨true, 0, 0, 0, two (.got p 0 0) .idle, [], false⟩) (by simp [step, advance, two_one, two_two, put_one, put_two]) ?_
  refine run_step (t := ⟨true, 0, 0, 0, two (.timed p 0 0 0) .idle, [], false⟩) (by simp [step, advance, two_one, two_two, put_one, put_two]) ?_
  refine run_step (t := ⟨true, 0, p, 0, two (.named p 0 0 0) .idle, [], false⟩) (by simp [step, advance, two_one, two_two, put_one, put_two]) ?_
  refine run_step (t := ⟨true, 0, p, 0, two (.holds p 0 0) .idle, [.lock 0 p 1 p 0 0 0], false⟩) (by simp [step, advance, two_one, two_two, put_one, put_two]) ?_
  refine run_step (t := ⟨true, 0, p, 0, two (.read 0 p 0 0 0) .idle, [.lock 0 p 1 p 0 0 0], false⟩) (by simp [step, advance, two_one, two_two, put_one, put_two]) ?_
  refine run_step (t := ⟨true, 0, p, 0, two (.ready 0 p p 0 0 0) .idle, [.lock 0 p 1 p 0 0 0], false⟩) (by simp [step, advance, two_one, two_two, put_one, put_two]) ?_
  refine run_step (t := ⟨false, 0, p, 0, two (.left 0 p p 0 0 0) .idle, [.lock 0 p 1 p 0 0 0], false⟩) (by simp [step, advance, two_one, two_two, put_one, put_two]) ?_
  refine run_step (t := ⟨false, 0, p, 0, two (.left 0 p p 0 0 0) (.waits q 0), [.lock 0 p 1 p 0 0 0], false⟩) (by simp [step, advance, two_one, two_two, put_one, put_two]) ?_
  refine run_step (t := ⟨true, 0, p, 0, two (.left 0 p p 0 0 0) (.got q 0 0), [.lock 0 p 1 p 0 0 0], false⟩) (by simp [step, advance, two_one, two_two, put_one, put_two]) ?_
  refine run_step (t := ⟨true, 0, p, 0, two (.left 0 p p 0 0 0) (.timed q 0 0 0), [.lock 0 p 1 p 0 0 0], false⟩) (by simp [step, advance, two_one, two_two, put_one, put_two]) ?_
  refine run_step (t := ⟨true, 0, q, 0, two (.left 0 p p 0 0 0) (.named q 0 0 0), [.lock 0 p 1 p 0 0 0], false⟩) (by simp [step, advance, two_one, two_two, put_one, put_two]) ?_
  refine run_step (t := ⟨true, 0, q, 0, two (.left 0 p p 0 0 0) (.holds q 0 0), [.lock 0 p 1 p 0 0 0, .lock 0 q 2 q 0 0 0], false⟩) (by simp [step, advance, two_one, two_two, put_one, put_two]) ?_
  refine run_step (t := ⟨true, 0, q, 0, two .idle (.holds q 0 0), [.lock 0 p 1 p 0 0 0, .lock 0 q 2 q 0 0 0, .unlock 0 p 1 p 0 0 0], false⟩) (by simp [step, advance, two_one, two_two, put_one, put_two]) ?_
  refine run_step (t := ⟨true, 0, q, 0, two .idle (.read 0 q 0 0 0), [.lock 0 p 1 p 0 0 0, .lock 0 q 2 q 0 0 0, .unlock 0 p 1 p 0 0 0], false⟩) (by simp [step, advance, two_one, two_two, put_one, put_two]) ?_
  refine run_step (t := ⟨true, 0, q, 0, two .idle (.ready 0 q q 0 0 0), [.lock 0 p 1 p 0 0 0, .lock 0 q 2 q 0 0 0, .unlock 0 p 1 p 0 0 0], false⟩) (by simp [step, advance, two_one, two_two, put_one, put_two]) ?_
  refine run_step (t := ⟨false, 0, q, 0, two .idle (.left 0 q q 0 0 0), [.lock 0 p 1 p 0 0 0, .lock 0 q 2 q 0 0 0, .unlock 0 p 1 p 0 0 0], false⟩) (by simp [step, advance, two_one, two_two, put_one, put_two]) ?_
  refine run_step (t := ⟨false, 0, q, 0, two .idle .idle, [.lock 0 p 1 p 0 0 0, .lock 0 q 2 q 0 0 0, .unlock 0 p 1 p 0 0 0, .unlock 0 q 2 q 0 0 0], false⟩) (by simp [step, advance, two_one, two_two, put_one, put_two]) ?_
  rfl

/-- C131: a goroutine waits two ticks while another has the lock for three. -/
example : (run [.callLock 1 10, .next 1, .next 1, .next 1, .next 1, .tick, .callLock 2 20, .tick, .tick, .callUnlock 1, .next 1, .next 1, .next 1, .next 2, .next 2, .next 2, .next 2] {}).map
    (fun s => s.log.map Line.shown) = some [(true, 0, 10), (false, 3, 10), (true, 2, 20)] := by decide +kernel

end Verif.Sync.Metrics

import Verif.Shutdown.Model
/-!
# Properties of the shutter (C31, C32, C67)
-/
set_option autoImplicit false
namespace Verif.Shutdown

/-! ### C31 -/

/-- The wake-up time of the timer goroutine. -/
def Timer.due : Timer → Option Nat
  | .absent => none
  | .sleeping t => some t
  | .ended t => some t

/-- The invariant behind C31. -/
structure BInv (s : St) : Prop where
  opn : s.once = .idle ∨ s.once = .entered ↔ s.ch = none
  timer : s.timer = .absent ↔ s.once ≠ .finished
  due : ∀ t, s.timer.due = some t → ∃ c, s.ch = some c ∧ c + 5 ≤ t
  past : ∀ c, s.ch = some c → c ≤ s.clock
  ch5 : ∀ c5, s.ch5 = some c5 → c5 ≤ s.clock ∧ ∃ t, s.timer = .ended t ∧ t ≤ c5

theorem binv {as : List Act} {s : St} {past : List St} (h : Exec as s past) : BInv s := by
  induction h with
  | init => exact ⟨by simp [St.init], by simp [St.init], by simp [St.init, Timer.due], by simp [St.init], by simp [St.init]⟩
  | @step as s s' past a _ hs ih =>
    obtain ⟨h1, h2, h3, h4, h5⟩ := ih
    cases a <;> simp only [St.step] at hs
    case tick =>
      injection hs with hs; subst hs
      exact ⟨h1, h2, h3, fun c hc => Nat.le_succ_of_le (h4 c hc), fun c hc => ⟨Nat.le_succ_of_le (h5 c hc).1, (h5 c hc).2⟩⟩
    case onceEnter =>
      split at hs
      · rename_i ho
        injection hs with hs; subst hs
        refine ⟨by simp [← h1, ho], by simp [h2, ho], h3, h4, h5⟩
      · cases hs
    case closeCh =>
      split at hs
      · rename_i ho
        have ht : s.timer = .absent := h2.2 (by rw [ho]; simp)
        split at hs
        · injection hs with hs; subst hs
          refine ⟨by simp, by simp [ht], by simp [ht, Timer.due], by simp, ?_⟩
          intro c hc; obtain ⟨_, t, ht', _⟩ := h5 c hc; rw [ht] at ht'; cases ht'
        · cases hs
      · cases hs
    case onceExit =>
      split at hs
      · rename_i ho
        have hc : s.ch ≠ none := fun e => by have := h1.2 e; rw [ho] at this; simp at this
        obtain ⟨c, hc⟩ := Option.ne_none_iff_exists'.1 hc
        injection hs with hs; subst hs
        refine ⟨by simp [hc], by simp, ?_, h4, ?_⟩
        · intro t ht
          simp only [Timer.due, Option.some.injEq] at ht
          exact ⟨c, hc, by have := h4 c hc; omega⟩
        · intro c hc; obtain ⟨_, t, ht, _⟩ := h5 c hc; have := h2.2 (by rw [ho]; simp); rw [this] at ht; cases ht
      · cases hs
    case beginAgain =>
      split at hs
      · injection hs with hs; subst hs; exact ⟨h1, h2, h3, h4, h5⟩
      · cases hs
    case closeCh5 =>
      split at hs
      · rename_i t ht
        split at hs
        · rename_i hle
          split at hs
          · injection hs with hs; subst hs
            rw [ht] at h2 h3
            refine ⟨h1, by simpa using h2, h3, h4, ?_⟩
            intro c hc; simp only [Option.some.injEq] at hc; subst hc
            exact ⟨Nat.le_refl _, t, rfl, hle⟩
          · cases hs
        · cases hs
      · cases hs
    case hold => injection hs with hs; subst hs; exact ⟨h1, h2, h3, h4, h5⟩
    case release => split at hs <;> first | (injection hs with hs; subst hs; exact ⟨h1, h2, h3, h4, h5⟩) | cases hs
    case done => injection hs with hs; subst hs; exact ⟨h1, h2, h3, h4, h5⟩
    case resume i =>
      split at hs
      · split at hs
        · injection hs with hs; subst hs; exact ⟨h1, h2, h3, h4, h5⟩
        · cases hs
      · cases hs
    case closeDone i => split at hs <;> first | (injection hs with hs; subst hs; exact ⟨h1, h2, h3, h4, h5⟩) | cases hs

/-- Taking a list of steps from the initial state. -/
def runActs : St → List Act → Except Stop St
  | s, [] => .ok s
  | s, a :: as => match s.step a with | .ok s => runActs s as | .error e => .error e

theorem exec_of_run (as : List Act) : ∀ (s s' : St) (done : List Act) (past : List St), Exec done s past → runActs s as = .ok s' →
    ∃ past', Exec (as.reverse ++ done) s' past' := by
  induction as with
  | nil => intro s s' done past h hr; injection hr with hr; subst hr; exact ⟨past, h⟩
  | cons a as ih =>
    intro s s' done past h hr
    simp only [runActs] at hr
    cases hs : s.step a with
    | error e => rw [hs] at hr; cases hr
    | ok s1 =>
      rw [hs] at hr
      obtain ⟨p, hp⟩ := ih s1 s' (a :: done) (s :: past) (.step a h hs) hr
      exact ⟨p, by simpa using hp⟩

/-- A shutdown with a hold that ends after the five seconds. -/
def sample : List Act := [.hold, .done, .onceEnter, .tick, .closeCh, .onceExit, .beginAgain, .tick, .tick, .tick, .tick, .tick, .closeCh5, .release, .resume 0, .closeDone 0]

/-- Every beginning of it is an execution. -/
theorem sample_exec (n : Nat) (s : St) (h : runActs St.init (sample.take n) = .ok s) : ∃ past, Exec (sample.take n).reverse s past := by
  simpa using exec_of_run _ _ _ _ _ .init h

/-- The state at its end. -/
def sampleEnd : St := { once := .finished, ch := some 1, timer := .ended 6, ch5 := some 6, wg := 0, waiters := [.closed], clock := 6 }

/-- C31: `close(this.ch)` and `close(this.ch5)` are each executed at most once, in any interleaving of `begin` callers.  -/
theorem C31_closed_once {as : List Act} {s : St} {past : List St} (h : Exec as s past) :
    as.count .closeCh = (if s.ch.isSome = true then 1 else 0) ∧ as.count .closeCh5 = (if s.ch5.isSome = true then 1 else 0) := by
  induction h with
  | init => simp [St.init]
  | @step as s s' past a _ hs ih =>
    obtain ⟨i1, i2⟩ := ih
    cases a <;> simp only [St.step] at hs
    case closeCh =>
      split at hs
      · split at hs
        · rename_i hc; injection hs with hs; subst hs; simp [i1, i2, hc]
        · cases hs
      · cases hs
    case closeCh5 =>
      split at hs
      · rename_i t ht
        split at hs
        · split at hs
          · rename_i hc; injection hs with hs; subst hs; simp [i1, i2, hc]
          · cases hs
        · cases hs
      · cases hs
    all_goals
      repeat' split at hs
      all_goals first
        | (injection hs with hs; subst hs; simp [i1, i2])
        | cases hs

example : ∃ s past, Exec sample.reverse s past ∧ s.ch = some 1 ∧ s.ch5 = some 6 ∧ sample.count .closeCh = 1 ∧ sample.count .closeCh5 = 1 :=
  let ⟨p, h⟩ := sample_exec 16 sampleEnd (by decide)
  ⟨_, p, h, rfl, rfl, rfl, rfl⟩

/-- C31: once closed, `Started` and `Started5Sec` stay closed, whatever happens next. -/
theorem C31_never_undone {s s' : St} (a : Act) (hs : s.step a = .ok s') :
    (∀ c, s.ch = some c → s'.ch = some c) ∧ (∀ c, s.ch5 = some c → s'.ch5 = some c) := by
  cases a <;> simp only [St.step] at hs <;> repeat' split at hs
  all_goals first
    | (injection hs with hs; subst hs; simp_all; done)
    | cases hs

example : ∃ s s', runActs St.init (sample.take 7) = .ok s ∧ s.ch = some 1 ∧ s.step .beginAgain = .ok s' ∧ s'.ch = some 1 := ⟨_, _, rfl, rfl, rfl, rfl⟩

/-- C31: `Started5Sec` is closed only if `Started` was, at least five seconds before. -/
theorem C31_five_seconds {as : List Act} {s : St} {past : List St} (h : Exec as s past) (c5 : Nat) (h5 : s.ch5 = some c5) :
    ∃ c, s.ch = some c ∧ c + 5 ≤ c5 := by
  have hi := binv h
  obtain ⟨_, t, ht, hle⟩ := hi.ch5 c5 h5
  obtain ⟨c, hc, hct⟩ := hi.due t (by rw [ht]; rfl)
  exact ⟨c, hc, by omega⟩

/-- Not after four seconds. -/
example : ∃ s, runActs St.init (sample.take 11) = .ok s ∧ s.ch = some 1 ∧ s.clock = 5 ∧ s.step .closeCh5 = .error .disabled := ⟨_, rfl, rfl, rfl, rfl⟩

/-- C31: in no execution does a `begin` call or the timer panic ("close of closed channel"). -/
theorem C31_no_panic {as : List Act} {s : St} {past : List St} (h : Exec as s past) (a : Act)
    (ha : a = .onceEnter ∨ a = .closeCh ∨ a = .onceExit ∨ a = .beginAgain ∨ a = .closeCh5) (p : Panic) :
    s.step a ≠ .error (.panic p) := by
  have hi := binv h
  rcases ha with rfl | rfl | rfl | rfl | rfl <;> simp only [St.step] <;> repeat' split
  all_goals simp
  · rename_i ho _ c hc
    have := hi.opn.1 (.inr ho); rw [hc] at this; cases this
  · rename_i t ht _ _ c5 hc
    obtain ⟨_, t', ht', _⟩ := hi.ch5 c5 hc
    rw [ht] at ht'; cases ht'

example : ∃ s past, Exec sample.reverse s past ∧ s.step .beginAgain = .ok s ∧ s.step .onceEnter = .error .disabled ∧ s.step .closeCh = .error .disabled :=
  let ⟨p, h⟩ := sample_exec 16 sampleEnd (by decide)
  ⟨_, p, h, rfl, rfl, rfl⟩

/-- C31: after some `begin` returned, `Started` is closed. -/
theorem C31_begin_closes {as : List Act} {s : St} {past : List St} (h : Exec as s past) (hf : s.once = .finished) : s.ch.isSome = true := by
  cases hc : s.ch with
  | some c => rfl
  | none => have := (binv h).opn.2 hc; rw [hf] at this; simp at this

example : ∃ s past, Exec (sample.take 6).reverse s past ∧ s.once = .finished ∧ s.ch = some 1 :=
  let ⟨p, h⟩ := sample_exec 6 { St.init with once := .finished, ch := some 1, timer := .sleeping 6, wg := 1, waiters := [.blocked], clock := 1 } (by decide)
  ⟨_, p, h, rfl, rfl⟩

/-! ### C32 -/

/-- C32: the counter is the number of holds minus the number of releases. -/
theorem C32_counter {as : List Act} {s : St} {past : List St} (h : Exec as s past) : as.count .release + s.wg = as.count .hold := by
  induction h with
  | init => rfl
  | @step as s s' past a _ hs ih =>
    cases a <;> simp only [St.step] at hs <;> repeat' split at hs
    all_goals first
      | (injection hs with hs; subst hs; simp; omega)
      | cases hs

example : ∃ s, runActs St.init [.hold, .hold, .release, .hold] = .ok s ∧ s.wg = 2 := ⟨_, rfl, rfl⟩

/-- C32: a release panics iff no hold is outstanding. -/
theorem C32_release_panics_iff {as : List Act} {s : St} {past : List St} (h : Exec as s past) :
    s.step .release = .error (.panic .negWaitGroup) ↔ as.count .hold = as.count .release := by
  have := C32_counter h
  simp only [St.step]
  split <;> simp <;> omega

example : ∃ s past, Exec sample.reverse s past ∧ s.step .release = .error (.panic .negWaitGroup) :=
  let ⟨p, h⟩ := sample_exec 16 sampleEnd (by decide)
  ⟨_, p, h, (C32_release_panics_iff h).2 (by decide)⟩

/-- C32: if the channel number `i` returned by `Done` is closed, or about to be, there was a moment after that `Done` call at which every hold
taken so far was released. In particular it stays open as long as some hold is outstanding. -/
theorem C32_closed_after_zero {as : List Act} {s : St} {past : List St} (h : Exec as s past) (i : Nat) (w : Waiter)
    (hw : s.waiters[i]? = some w) (hc : w ≠ .blocked) :
    ∃ s0 ∈ s :: past, i < s0.waiters.length ∧ s0.wg = 0 := by
  induction h generalizing w with
  | init => simp [St.init] at hw
  | @step as s s' past a hx hs ih =>
    have lift : (∃ s0 ∈ s :: past, i < s0.waiters.length ∧ s0.wg = 0) → ∃ s0 ∈ s' :: s :: past, i < s0.waiters.length ∧ s0.wg = 0 := by
      rintro ⟨s0, h0, hp⟩; exact ⟨s0, List.mem_cons_of_mem _ h0, hp⟩
    have hlen : i < s'.waiters.length := (List.getElem?_eq_some_iff.1 hw).1
    cases a <;> simp only [St.step] at hs
    case release =>
      split at hs
      · cases hs
      · injection hs with hs; subst hs; exact ⟨_, List.mem_cons_self, hlen, rfl⟩
      · injection hs with hs; subst hs; exact lift (ih w hw hc)
    case done =>
      injection hs with hs; subst hs
      by_cases hi : i < s.waiters.length
      · rw [List.getElem?_append_left hi] at hw; exact lift (ih w hw hc)
      · rw [List.getElem?_append_right (by omega)] at hw
        have : i - s.waiters.length = 0 := by
          simp at hlen; omega
        rw [this] at hw
        simp only [List.getElem?_cons_zero, Option.some.injEq] at hw
        by_cases h0 : s.wg = 0
        · exact ⟨_, List.mem_cons_self, hlen, h0⟩
        · rw [if_neg h0] at hw; exact absurd hw.symm hc
    case resume j =>
      split at hs
      · rename_i hj
        split at hs
        · injection hs with hs; subst hs
          by_cases e : j = i
          · subst e; exact lift (ih _ hj (by simp))
          · rw [List.getElem?_set_ne e] at hw; exact lift (ih w hw hc)
        · cases hs
      · cases hs
    case closeDone j =>
      split at hs
      · rename_i hj
        injection hs with hs; subst hs
        by_cases e : j = i
        · subst e; exact lift (ih _ hj (by simp))
        · rw [List.getElem?_set_ne e] at hw; exact lift (ih w hw hc)
      · cases hs
    all_goals
      repeat' split at hs
      all_goals first
        | (injection hs with hs; subst hs; exact lift (ih w hw hc))
        | cases hs

example : ∃ s past, Exec sample.reverse s past ∧ s.waiters = [.closed] ∧ ∃ s0 ∈ s :: past, 0 < s0.waiters.length ∧ s0.wg = 0 :=
  let ⟨p, h⟩ := sample_exec 16 sampleEnd (by decide)
  ⟨_, p, h, rfl, C32_closed_after_zero h 0 .closed rfl (by decide)⟩

/-- C32: a closed `Done` channel stays closed, and only its own goroutine closes it. -/
theorem C32_closed_stays {s s' : St} (a : Act) (hs : s.step a = .ok s') (i : Nat) :
    (s.waiters[i]? = some .closed → s'.waiters[i]? = some .closed) ∧
    (s'.waiters[i]? = some .closed → s.waiters[i]? = some .closed ∨ (a = .closeDone i ∧ s.waiters[i]? = some .returned)) := by
  cases a <;> simp only [St.step] at hs
  case release =>
    split at hs
    · cases hs
    · injection hs with hs; subst hs
      simp only [List.getElem?_map]
      cases s.waiters[i]? with
      | none => simp
      | some w => cases w <;> simp
    · injection hs with hs; subst hs; exact ⟨id, fun h => .inl h⟩
  case done =>
    injection hs with hs; subst hs
    by_cases hi : i < s.waiters.length
    · simp only [List.getElem?_append_left hi]; exact ⟨id, fun h => .inl h⟩
    · rw [List.getElem?_append_right (by omega)]
      refine ⟨fun h => absurd (List.getElem?_eq_some_iff.1 h).1 hi, ?_⟩
      intro h
      by_cases h0 : i - s.waiters.length = 0
      · rw [h0] at h; simp only [List.getElem?_cons_zero, Option.some.injEq] at h; split at h <;> cases h
      · rw [List.getElem?_eq_none (by simp; omega)] at h; cases h
  case resume j =>
    split at hs
    · rename_i hj
      split at hs
      · injection hs with hs; subst hs
        by_cases e : j = i
        · subst e
          have hl := (List.getElem?_eq_some_iff.1 hj).1
          rw [hj]
          simp [List.getElem?_set_self hl]
        · rw [List.getElem?_set_ne e]; exact ⟨id, fun h => .inl h⟩
      · cases hs
    · cases hs
  case closeDone j =>
    split at hs
    · rename_i hj
      injection hs with hs; subst hs
      by_cases e : j = i
      · subst e
        have hl := (List.getElem?_eq_some_iff.1 hj).1
        rw [hj]
        simp [List.getElem?_set_self hl]
      · rw [List.getElem?_set_ne e]; exact ⟨id, fun h => .inl h⟩
    · cases hs
  all_goals
    repeat' split at hs
    all_goals first
      | (injection hs with hs; subst hs; exact ⟨id, fun h => .inl h⟩)
      | cases hs

example : ∃ s s', runActs St.init sample = .ok s ∧ s.step .hold = .ok s' ∧ s'.wg = 1 ∧ s'.waiters = [.closed] := ⟨_, _, rfl, rfl, rfl, rfl⟩

/-- C32: if a hold is outstanding when a channel is requested and never since was there a moment without holds, the channel is open: it can
only be in the blocked state. -/
theorem C32_open_while_held {as : List Act} {s : St} {past : List St} (h : Exec as s past) (i : Nat) (hi : i < s.waiters.length)
    (hold : ∀ s0 ∈ s :: past, i < s0.waiters.length → 0 < s0.wg) : s.waiters[i]? = some .blocked := by
  have hw : s.waiters[i]? = some s.waiters[i] := List.getElem?_eq_getElem hi
  by_cases hb : s.waiters[i] = .blocked
  · rw [hw, hb]
  · obtain ⟨s0, h0, hl, hz⟩ := C32_closed_after_zero h i _ hw hb
    have := hold s0 h0 hl
    omega

example : ∃ s, runActs St.init (sample.take 13) = .ok s ∧ s.ch5 = some 6 ∧ s.wg = 1 ∧ s.waiters = [.blocked] := ⟨_, rfl, rfl, rfl, rfl⟩

/-- C32 (the strongest form is violated): the channel may close at a moment when a hold is outstanding, if the hold was taken between the
moment without holds and the close. -/
theorem C32_at_close_violated : ∃ (as : List Act) (s s' : St) (past : List St), Exec as s past ∧ 0 < s.wg ∧ s.step (.closeDone 0) = .ok s' ∧
    s'.waiters[0]? = some .closed := by
  have hr : runActs St.init [.done, .hold] = .ok { St.init with wg := 1, waiters := [.returned] } := by decide
  obtain ⟨p, hp⟩ := exec_of_run _ _ _ _ _ .init hr
  exact ⟨_, _, _, p, hp, by decide, rfl, rfl⟩

/-- C32 (liveness): when no hold is outstanding, no `Done` goroutine is blocked any more. -/
theorem C32_zero_wakes {as : List Act} {s : St} {past : List St} (h : Exec as s past) (hz : s.wg = 0) : ∀ w ∈ s.waiters, w ≠ .blocked := by
  induction h with
  | init => simp [St.init]
  | @step as s s' past a hx hs ih =>
    cases a <;> simp only [St.step] at hs <;> repeat' split at hs
    all_goals try (cases hs; done)
    all_goals (injection hs with hs; subst hs)
    all_goals first
      | exact ih hz
      | skip
    · simp at hz
    · intro w hw
      simp only [List.mem_map] at hw
      obtain ⟨w0, _, rfl⟩ := hw
      split <;> simp_all
    · simp at hz
    · intro w hw
      rcases List.mem_append.1 hw with hw | hw
      · exact ih hz w hw
      · simp only [List.mem_singleton] at hw; subst hw; simp
    · rename_i hne; exact absurd hz hne
    · intro w hw
      rcases List.mem_or_eq_of_mem_set hw with hw | rfl
      · exact ih hz w hw
      · simp
    · intro w hw
      rcases List.mem_or_eq_of_mem_set hw with hw | rfl
      · exact ih hz w hw
      · simp

example : ∃ s, runActs St.init (sample.take 14) = .ok s ∧ s.wg = 0 ∧ s.waiters = [.woken] := ⟨_, rfl, rfl, rfl⟩

/-- C32 (liveness): so the goroutine of any `Done` call can then run to the close of its channel, in at most two steps of its own. -/
theorem C32_zero_closes {as : List Act} {s : St} {past : List St} (h : Exec as s past) (hz : s.wg = 0) (i : Nat) (hi : i < s.waiters.length) :
    ∃ acts s', (∀ a ∈ acts, a = .resume i ∨ a = .closeDone i) ∧ acts.length ≤ 2 ∧ runActs s acts = .ok s' ∧ s'.waiters[i]? = some .closed := by
  have hw : s.waiters[i]? = some s.waiters[i] := List.getElem?_eq_getElem hi
  have hnb := C32_zero_wakes h hz _ (List.getElem_mem hi)
  cases hx : s.waiters[i] with
  | blocked => exact absurd hx hnb
  | closed => exact ⟨[], s, by simp, by simp, rfl, by rw [hw, hx]⟩
  | returned =>
    refine ⟨[.closeDone i], { s with waiters := s.waiters.set i .closed }, by simp, by simp, ?_, ?_⟩
    · simp [runActs, St.step, hw, hx]
    · simp [hi]
  | woken =>
    refine ⟨[.resume i, .closeDone i], { s with waiters := (s.waiters.set i .returned).set i .closed }, by simp, by simp, ?_, ?_⟩
    · simp [runActs, St.step, hw, hx, hz, hi]
    · simp [hi]

example : ∃ s past acts s', Exec (sample.take 14).reverse s past ∧ s.waiters = [.woken] ∧ runActs s acts = .ok s' ∧ s'.waiters[0]? = some .closed :=
  let ⟨p, h⟩ := sample_exec 14 { sampleEnd with waiters := [.woken] } (by decide)
  let ⟨acts, s', _, _, h3, h4⟩ := C32_zero_closes h rfl 0 (by decide)
  ⟨_, p, acts, s', h, rfl, h3, h4⟩

/-! ### C67 -/

/-- C67 (violated): a hold taken after the last release, while a goroutine of an earlier `Done` call has been woken but has not run yet,
makes that goroutine panic. -/
theorem C67_hold_reuse_violated : ∃ (as : List Act) (s : St) (past : List St), Exec as s past ∧
    as.reverse = [.hold, .done, .release, .hold] ∧ s.step (.resume 0) = .error (.panic .explicit) := by
  have hr : runActs St.init [.hold, .done, .release, .hold] = .ok { St.init with wg := 1, waiters := [.woken] } := by decide
  obtain ⟨p, hp⟩ := exec_of_run _ _ _ _ _ .init hr
  exact ⟨_, _, p, hp, by decide, by decide⟩

/-- No hold is taken while a woken goroutine of an earlier `Done` call has not resumed. -/
def NoReuse : List Act → List St → Prop
  | .hold :: as, s :: past => .woken ∉ s.waiters ∧ NoReuse as past
  | _ :: as, _ :: past => NoReuse as past
  | _, _ => True

/-- C67 (partial): in executions where no hold is taken while a woken `Done` goroutine is pending, nothing panics except an excess
release. -/
theorem C67_no_reuse_partial {as : List Act} {s : St} {past : List St} (h : Exec as s past) (hnr : NoReuse as past)
    (a : Act) (p : Panic) (hp : s.step a = .error (.panic p)) : a = .release ∧ as.count .hold = as.count .release := by
  have hz : .woken ∈ s.waiters → s.wg = 0 := by
    clear hp
    induction h with
    | init => simp [St.init]
    | @step as s s' past b hx hs ih =>
      have hnr' : NoReuse as past := by cases b <;> first | exact hnr | exact hnr.2
      have ih := ih hnr'
      cases b <;> simp only [St.step] at hs
      case hold => injection hs with hs; subst hs; intro hw; exact absurd hw hnr.1
      case release =>
        split at hs
        · cases hs
        · injection hs with hs; subst hs; intro _; rfl
        · rename_i n hn
          injection hs with hs; subst hs; intro hw; have := ih hw; omega
      case done =>
        injection hs with hs; subst hs; intro hw
        simp only [List.mem_append, List.mem_singleton] at hw
        rcases hw with hw | hw
        · exact ih hw
        · split at hw <;> cases hw
      case resume i =>
        split at hs
        · split at hs
          · injection hs with hs; subst hs; intro _; assumption
          · cases hs
        · cases hs
      case closeDone i =>
        split at hs
        · injection hs with hs; subst hs; intro hw
          rcases List.mem_or_eq_of_mem_set hw with hw | hw
          · exact ih hw
          · cases hw
        · cases hs
      all_goals
        repeat' split at hs
        all_goals first
          | (injection hs with hs; subst hs; exact ih)
          | cases hs
  have hc := C32_counter h
  have hb : a ≠ .closeCh ∧ a ≠ .closeCh5 :=
    ⟨fun e => C31_no_panic h a (by simp [e]) p hp, fun e => C31_no_panic h a (by simp [e]) p hp⟩
  cases a <;> simp only [St.step] at hp <;> repeat' split at hp
  all_goals first
    | (cases hp; done)
    | (exact absurd rfl hb.1)
    | (exact absurd rfl hb.2)
    | skip
  · rename_i h0; exact ⟨rfl, by omega⟩
  · rename_i hw hne
    exact absurd (hz (List.mem_of_getElem? hw)) hne

/-! ### concrete cases -/

/-- Two callers of `begin`, a hold released after the start, five seconds: both channels close, `Done` closes last. -/
example : (runActs St.init [.hold, .done, .onceEnter, .closeCh, .onceExit, .beginAgain, .tick, .tick, .tick, .tick, .tick, .closeCh5,
    .release, .resume 0, .closeDone 0]).toOption.map (fun s => (s.ch, s.ch5, s.wg, s.waiters)) = some (some 0, some 5, 0, [.closed]) := by decide
example : runActs St.init [.hold, .release, .release] = .error (.panic .negWaitGroup) := by decide

end Verif.Shutdown

import Verif.Shutdown.Signal
import Verif.Shutdown.Props
/-!
# Properties of the signal loop (C33)
-/
set_option autoImplicit false
namespace Verif.Shutdown

theorem begin_exec {as : List Act} {s s' : St} {past : List St} (h : Exec as s past) (hb : s.begin = .ok s') :
    (∃ as' past', Exec as' s' past' ∧ ∀ x ∈ past', x ∈ past ∨ (x.wg = s.wg ∧ x.waiters = s.waiters)) ∧ s'.wg = s.wg ∧ s'.waiters = s.waiters ∧
      s'.once = .finished := by
  have same : ∀ (s s' : St) (a : Act), (a = .onceEnter ∨ a = .closeCh ∨ a = .onceExit ∨ a = .beginAgain) → s.step a = .ok s' →
      s'.wg = s.wg ∧ s'.waiters = s.waiters := by
    intro s s' a ha hs
    rcases ha with rfl | rfl | rfl | rfl <;> simp only [St.step] at hs <;> repeat' split at hs
    all_goals first
      | (injection hs with hs; subst hs; exact ⟨rfl, rfl⟩)
      | cases hs
  unfold St.begin at hb
  cases ho : s.once with
  | idle =>
    rw [ho] at hb
    simp only [bind, Except.bind] at hb
    cases h1 : s.step .onceEnter with
    | error e => rw [h1] at hb; cases hb
    | ok s1 =>
      rw [h1] at hb; simp only at hb
      cases h2 : s1.step .closeCh with
      | error e => rw [h2] at hb; cases hb
      | ok s2 =>
        rw [h2] at hb; simp only at hb
        have e1 := Exec.step .onceEnter h h1
        have e2 := Exec.step .closeCh e1 h2
        have e3 := Exec.step .onceExit e2 hb
        obtain ⟨a1, a2⟩ := same _ _ _ (by simp) h1
        obtain ⟨b1, b2⟩ := same _ _ _ (by simp) h2
        obtain ⟨c1, c2⟩ := same _ _ _ (by simp) hb
        refine ⟨⟨_, _, e3, ?_⟩, by rw [c1, b1, a1], by rw [c2, b2, a2], ?_⟩
        · intro x hx
          simp only [List.mem_cons] at hx
          rcases hx with rfl | rfl | rfl | hx
          · exact .inr ⟨by rw [b1, a1], by rw [b2, a2]⟩
          · exact .inr ⟨a1, a2⟩
          · exact .inr ⟨rfl, rfl⟩
          · exact .inl hx
        · simp only [St.step] at hb
          split at hb
          · injection hb with hb; subst hb; rfl
          · cases hb
  | finished =>
    rw [ho] at hb
    have e := Exec.step .beginAgain h hb
    obtain ⟨a1, a2⟩ := same _ _ _ (by simp) hb
    refine ⟨⟨_, _, e, ?_⟩, a1, a2, ?_⟩
    · intro x hx
      rcases List.mem_cons.1 hx with rfl | hx
      · exact .inr ⟨rfl, rfl⟩
      · exact .inl hx
    · simp only [St.step, ho, if_true] at hb; injection hb with hb; subst hb; exact ho
  | entered => rw [ho] at hb; cases hb
  | closed => rw [ho] at hb; cases hb

/-- The shutter of an execution of the loop is in an execution of its own, passing through the same states. -/
theorem base_exec {as : List MAct} {m : MSt} {past : List MSt} (h : MExec as m past) :
    ∃ bas bpast, Exec bas m.base bpast ∧ ∀ x ∈ m.base :: bpast, ∃ m0 ∈ m :: past, x.wg = m0.base.wg ∧ x.waiters = m0.base.waiters := by
  induction h with
  | init => exact ⟨[], [], .init, by intro x hx; simp at hx; subst hx; exact ⟨MSt.init, by simp, rfl, rfl⟩⟩
  | @step as m m' past a _ hs ih =>
    obtain ⟨bas, bpast, hb, hm⟩ := ih
    have keep : m'.base = m.base → ∃ bas bpast, Exec bas m'.base bpast ∧
        ∀ x ∈ m'.base :: bpast, ∃ m0 ∈ m' :: m :: past, x.wg = m0.base.wg ∧ x.waiters = m0.base.waiters := by
      intro e
      rw [e]
      refine ⟨bas, bpast, hb, fun x hx => ?_⟩
      obtain ⟨m0, h0, hp⟩ := hm x hx
      exact ⟨m0, List.mem_cons_of_mem _ h0, hp⟩
    have one : ∀ a, m.base.step a = .ok m'.base → ∃ bas bpast, Exec bas m'.base bpast ∧
        ∀ x ∈ m'.base :: bpast, ∃ m0 ∈ m' :: m :: past, x.wg = m0.base.wg ∧ x.waiters = m0.base.waiters := by
      intro a ha
      refine ⟨_, _, .step a hb ha, fun x hx => ?_⟩
      rcases List.mem_cons.1 hx with rfl | hx
      · exact ⟨m', by simp, rfl, rfl⟩
      · obtain ⟨m0, h0, hp⟩ := hm x hx
        exact ⟨m0, List.mem_cons_of_mem _ h0, hp⟩
    cases a <;> simp only [MSt.step] at hs
    case env a =>
      split at hs
      · cases hs
      · split at hs
        · rename_i s hstep; injection hs with hs; subst hs; exact one a hstep
        · cases hs
    case signal => injection hs with hs; subst hs; exact keep rfl
    case loop =>
      split at hs
      · split at hs
        · rename_i s hstep; injection hs with hs; subst hs; exact one .done hstep
        · cases hs
      · cases hs
    case fin =>
      split at hs
      · split at hs
        · injection hs with hs; subst hs; exact keep rfl
        · cases hs
      · cases hs
    case sig =>
      split at hs
      · split at hs
        · split at hs
          · rename_i s hbegin
            injection hs with hs; subst hs
            obtain ⟨⟨as', past', he, hp⟩, hw, hwt, _⟩ := begin_exec hb hbegin
            refine ⟨as', past', he, fun x hx => ?_⟩
            rcases List.mem_cons.1 hx with rfl | hx
            · exact ⟨_, List.mem_cons_self, rfl, rfl⟩
            · rcases hp x hx with hx | ⟨e1, e2⟩
              · obtain ⟨m0, h0, hq⟩ := hm x (List.mem_cons_of_mem _ hx)
                exact ⟨m0, List.mem_cons_of_mem _ h0, hq⟩
              · exact ⟨m, by simp, e1, e2⟩
          · cases hs
        · injection hs with hs; subst hs; exact keep rfl
        · injection hs with hs; subst hs; exact keep rfl
      · cases hs

/-- The invariant of the loop. -/
structure SInv (as : List MAct) (m : MSt) : Prop where
  effects : m.effects = [Effect.begin, .cancelRoot, .exit].take (as.count .sig)
  count : as.count .sig ≤ 3
  i : m.pc ≠ .exited → m.i = as.count .sig ∧ as.count .sig ≤ 2
  exited : m.pc = .exited ↔ as.count .sig = 3
  queue : m.queue ≤ 3 ∧ m.queue + as.count .sig ≤ as.count .signal
  began : 1 ≤ as.count .sig → m.base.once = .finished
  sel : ∀ w, m.pc = .select w → w < m.base.waiters.length

theorem once_stays {s s' : St} (a : Act) (hs : s.step a = .ok s') (h : s.once = .finished) : s'.once = .finished := by
  cases a <;> simp only [St.step] at hs <;> repeat' split at hs
  all_goals first
    | (injection hs with hs; subst hs; simp_all; done)
    | cases hs

theorem waiters_grow {s s' : St} (a : Act) (hs : s.step a = .ok s') : s.waiters.length ≤ s'.waiters.length := by
  cases a <;> simp only [St.step] at hs <;> repeat' split at hs
  all_goals first
    | (injection hs with hs; subst hs; simp; done)
    | cases hs

theorem sinv {as : List MAct} {m : MSt} {past : List MSt} (h : MExec as m past) : SInv as m := by
  induction h with
  | init => exact ⟨rfl, by simp, by simp [MSt.init], by simp [MSt.init], by simp [MSt.init], by simp, by simp [MSt.init]⟩
  | @step as m m' past a hx hs ih =>
    obtain ⟨h1, h2, h3, h4, h5, h6, h7⟩ := ih
    cases a <;> simp only [MSt.step] at hs
    case env a =>
      split at hs
      · cases hs
      · split at hs
        · rename_i s hstep; injection hs with hs; subst hs
          refine ⟨by simpa using h1, by simpa using h2, by simpa using h3, by simpa using h4, by simpa using h5, ?_, ?_⟩
          · intro hc; exact once_stays a hstep (h6 (by simpa using hc))
          · intro w hw; exact Nat.lt_of_lt_of_le (h7 w hw) (waiters_grow a hstep)
        · cases hs
    case signal =>
      injection hs with hs; subst hs
      refine ⟨by simpa using h1, by simpa using h2, by simpa using h3, by simpa using h4, ?_, by simpa using h6, h7⟩
      simp only [List.count_cons]
      have := h5
      constructor
      · split <;> omega
      · split <;> simp <;> omega
    case loop =>
      split at hs
      · rename_i hpc
        split at hs
        · rename_i s hstep; injection hs with hs; subst hs
          refine ⟨by simpa using h1, by simpa using h2, ?_, ?_, by simpa using h5, ?_, ?_⟩
          · intro _; simpa using h3 (by rw [hpc]; simp)
          · simp; intro hc; have := h4.2 hc; rw [hpc] at this; cases this
          · intro hc; exact once_stays .done hstep (h6 (by simpa using hc))
          · intro w hw
            simp only [MPC.select.injEq] at hw; subst hw
            simp only [St.step] at hstep; injection hstep with hstep; subst hstep; simp
        · cases hs
      · cases hs
    case fin =>
      split at hs
      · rename_i w hpc
        split at hs
        · injection hs with hs; subst hs
          refine ⟨by simpa using h1, by simpa using h2, ?_, ?_, by simpa using h5, by simpa using h6, by simp⟩
          · intro _; simpa using h3 (by rw [hpc]; simp)
          · simp; intro hc; have := h4.2 hc; rw [hpc] at this; cases this
        · cases hs
      · cases hs
    case sig =>
      obtain ⟨bas, bpast, hb, _⟩ := base_exec hx
      split at hs
      · rename_i w q hpc hq
        obtain ⟨hi, hle⟩ := h3 (by rw [hpc]; simp)
        have hq5 := h5
        split at hs
        · rename_i hi0
          split at hs
          · rename_i s hbegin
            injection hs with hs; subst hs
            have hc0 : as.count .sig = 0 := by omega
            obtain ⟨_, _, _, hfin⟩ := begin_exec hb hbegin
            refine ⟨by simp [hc0, h1], by simp [hc0], by simp [hc0], by simp [hc0], by simp [hc0]; omega, fun _ => hfin, by simp⟩
          · cases hs
        · rename_i hi1
          injection hs with hs; subst hs
          have hc1 : as.count .sig = 1 := by omega
          refine ⟨by simp [hc1, h1], by simp [hc1], by simp [hc1], by simp [hc1], by simp [hc1]; omega, fun _ => h6 (by omega), by simp⟩
        · rename_i hn0 hn1
          injection hs with hs; subst hs
          have hc2 : as.count .sig = 2 := by
            have : m.i ≠ 0 := hn0
            have : m.i ≠ 1 := hn1
            omega
          refine ⟨by simp [hc2, h1], by simp [hc2], by simp, by simp [hc2], by simp [hc2]; omega, fun _ => h6 (by omega), by simp⟩
      · cases hs

/-- C33: the reactions of the loop are, in order, beginning the shutdown, cancelling the root context and exiting the process: one per
handled signal, never more, never another order; and every handled signal was delivered. -/
theorem C33_escalation {as : List MAct} {m : MSt} {past : List MSt} (h : MExec as m past) :
    m.effects = [Effect.begin, .cancelRoot, .exit].take (as.count .sig) ∧ as.count .sig ≤ 3 ∧ as.count .sig ≤ as.count .signal ∧
    (m.pc = .exited ↔ as.count .sig = 3) := by
  have hi := sinv h
  exact ⟨hi.effects, hi.count, by have := hi.queue; omega, hi.exited⟩

/-- C33: from the first handled signal on, the shutdown has begun. -/
theorem C33_first_signal_begins {as : List MAct} {m : MSt} {past : List MSt} (h : MExec as m past) (h1 : 1 ≤ as.count .sig) :
    m.base.ch.isSome = true := by
  obtain ⟨_, _, hb, _⟩ := base_exec h
  exact C31_begin_closes hb ((sinv h).began h1)

/-- C33: if the loop returned, there was a moment when no hold was outstanding, after a `select` had been entered. -/
theorem C33_returns_only_without_holds {as : List MAct} {m : MSt} {past : List MSt} (h : MExec as m past) (hr : m.pc = .returned) :
    ∃ m0 ∈ m :: past, 0 < m0.base.waiters.length ∧ m0.base.wg = 0 := by
  have key : ∀ {as : List MAct} {m : MSt} {past : List MSt}, MExec as m past → ∀ w, m.base.waiters[w]? = some .closed →
      ∃ m0 ∈ m :: past, w < m0.base.waiters.length ∧ m0.base.wg = 0 := by
    intro as m past h w hw
    obtain ⟨_, _, hb, hm⟩ := base_exec h
    obtain ⟨s0, h0, hl, hz⟩ := C32_closed_after_zero hb w _ hw (by simp)
    obtain ⟨m0, hm0, e1, e2⟩ := hm s0 h0
    exact ⟨m0, hm0, by rw [← e2]; exact hl, by rw [← e1]; exact hz⟩
  induction h with
  | init => simp [MSt.init] at hr
  | @step as m m' past a hx hs ih =>
    have lift : (∃ m0 ∈ m :: past, 0 < m0.base.waiters.length ∧ m0.base.wg = 0) → ∃ m0 ∈ m' :: m :: past, 0 < m0.base.waiters.length ∧ m0.base.wg = 0 := by
      rintro ⟨m0, h0, hp⟩; exact ⟨m0, List.mem_cons_of_mem _ h0, hp⟩
    cases a <;> simp only [MSt.step] at hs
    case fin =>
      split at hs
      · rename_i w hpc
        split at hs
        · rename_i hw
          obtain ⟨m0, h0, hl, hz⟩ := key hx w hw
          exact ⟨m0, List.mem_cons_of_mem _ h0, by omega, hz⟩
        · cases hs
      · cases hs
    all_goals
      repeat' split at hs
      all_goals first
        | (injection hs with hs; subst hs; simp at hr; done)
        | (injection hs with hs; subst hs; exact lift (ih hr))
        | cases hs

/-- C33: while holds are outstanding (at every moment so far) the loop does not return; a pending signal can always be handled, unless a
concurrent `Begin` is still running. -/
theorem C33_held_never_returns {as : List MAct} {m : MSt} {past : List MSt} (h : MExec as m past)
    (hheld : ∀ m0 ∈ m :: past, 0 < m0.base.waiters.length → 0 < m0.base.wg) :
    m.pc ≠ .returned ∧ ∀ w, m.pc = .select w → 0 < m.queue → m.base.once = .idle ∨ m.base.once = .finished → ∃ m', m.step .sig = .ok m' := by
  constructor
  · intro hr
    obtain ⟨m0, h0, hl, hz⟩ := C33_returns_only_without_holds h hr
    have := hheld m0 h0 hl
    omega
  · intro w hw hq ho
    obtain ⟨_, _, hb, _⟩ := base_exec h
    have hbegin : ∃ s, m.base.begin = .ok s := by
      unfold St.begin
      rcases ho with ho | ho
      · have := (binv hb).opn.1 (.inl ho)
        rw [ho]
        simp [bind, Except.bind, St.step, ho, this]
      · rw [ho]; simp [St.step, ho]
    obtain ⟨s, hs⟩ := hbegin
    obtain ⟨q, hq⟩ : ∃ q, m.queue = q + 1 := ⟨m.queue - 1, by omega⟩
    simp only [MSt.step, hw, hq]
    split
    · rw [hs]; exact ⟨_, rfl⟩
    · exact ⟨_, rfl⟩
    · exact ⟨_, rfl⟩

/-! ### concrete cases -/

/-- Taking a list of steps. -/
def runM : MSt → List MAct → Except Stop MSt
  | m, [] => .ok m
  | m, a :: as => match m.step a with | .ok m => runM m as | .error e => .error e

/-- Three signals while a hold is outstanding: begin, cancel, exit. -/
example : ((runM MSt.init [.env .hold, .loop, .signal, .sig, .loop, .signal, .signal, .sig, .loop, .sig]).toOption.map
    (fun m => (m.effects, m.pc))) = some ([.begin, .cancelRoot, .exit], .exited) := by decide
/-- One signal, then the hold is released: a normal return. -/
example : ((runM MSt.init [.env .hold, .loop, .signal, .sig, .loop, .env .release, .env (.resume 1), .env (.closeDone 1), .fin]).toOption.map
    (fun m => (m.effects, m.pc))) = some ([.begin], .returned) := by decide
/-- Without any hold the loop returns before any signal. -/
example : ((runM MSt.init [.loop, .env (.closeDone 0), .fin]).toOption.map (fun m => (m.effects, m.pc))) = some ([], .returned) := by decide
/-- C67 in the loop: a worker that takes a second hold right after the last release crashes the process waiting for signals. -/
example : runM MSt.init [.env .hold, .loop, .env .release, .env .hold, .env (.resume 0)] = .error (.panic .explicit) := by rfl

end Verif.Shutdown

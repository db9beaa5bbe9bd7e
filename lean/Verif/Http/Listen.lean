/-!
# `Server.Listen` (http/server.go L96-146) as a step machine

Three goroutines: the caller, which waits for the first `Accept` after starting the two others (L112-144); the server (L117-131), which calls `Serve`; and the one
that waits for the shutdown of the program (L133-138) and then calls `Shutdown` of the server. `Serve` of `net/http` refuses to start if `Shutdown` was called
before, without calling `Accept`; `Accept` of the wrapped listener (L155-158) reports to the caller, once. That the port could be opened is assumed; requests
are not modelled.
-/
set_option autoImplicit false
namespace Verif.Http.Listen

/-- Where the server is: before `Serve`, registered but before the first `Accept`, accepting, refused by `Serve`. http/server.go L122-135. -/
inductive Srv where
  | start | tracked | accepting | refused
deriving DecidableEq

/-- The state: whether the program is shutting down, whether `Shutdown` was called, the server, the messages in the channel, and whether `Listen` returned. http/server.go L115-145. -/
structure St where
  started : Bool
  closed : Bool
  srv : Srv
  chan : Nat
  returned : Bool
deriving DecidableEq

/-- When the goroutines have been started; the program may be shutting down already. http/server.go L121-142. -/
def init (started : Bool) : St := ⟨started, false, .start, 0, false⟩

/-- A step of one of the goroutines, or of the outside: http/server.go L121-145, L155-158. -/
inductive Act where
  /-- the program begins to shut down -/
  | begin
  /-- `Shutdown` (L134-137) -/
  | shutdown
  /-- `Serve` registers the listener, or refuses -/
  | serve
  /-- the first `Accept` (L155-158) -/
  | accept
  /-- the caller receives (L146) -/
  | receive

/-- The state after a step, if it is possible: http/server.go L121-145, L155-158. -/
def step (s : St) : Act → Option St
  | .begin => if s.started then none else some { s with started := true }
  | .shutdown => if s.started ∧ s.closed = false then some { s with closed := true } else none
  | .serve => if s.srv = .start then some { s with srv := if s.closed then .refused else .tracked } else none
  | .accept => if s.srv = .tracked then some { s with srv := .accepting, chan := s.chan + 1 } else none
  | .receive => if s.chan > 0 ∧ s.returned = false then some { s with chan := s.chan - 1, returned := true } else none

/-- Executions: the actions done, in order. -/
inductive Exec : St → List Act → St → Prop where
  | nil (s : St) : Exec s [] s
  | cons {s s' s'' : St} {a : Act} {l : List Act} : step s a = some s' → Exec s' l s'' → Exec s (a :: l) s''

/-- How much is left to do. -/
def left (s : St) : Nat :=
  (if s.started then 0 else 1) + (if s.closed then 0 else 1) + (match s.srv with | .start => 3 | .tracked => 2 | _ => 0) + s.chan

theorem step_left {s s' : St} {a : Act} (h : step s a = some s') : left s' < left s := by
  cases a <;> simp only [step] at h
  · split at h
    · cases h
    · injection h with h; subst h; simp_all [left]
  · split at h
    · injection h with h; subst h; simp_all [left]
    · cases h
  · split at h
    · rename_i hs
      injection h with h; subst h
      cases hc : s.closed <;> simp [left, hs, hc] <;> omega
    · cases h
  · split at h
    · rename_i hs
      injection h with h; subst h
      simp [left, hs]; omega
    · cases h
  · split at h
    · rename_i hs
      injection h with h; subst h
      simp [left]; omega
    · cases h

/-- What always holds: if the server accepts then the caller was told. -/
def Inv (s : St) : Prop := s.srv = .accepting → s.returned = true ∨ s.chan > 0

theorem inv_step {s s' : St} {a : Act} (hi : Inv s) (h : step s a = some s') : Inv s' := by
  unfold Inv at *
  cases a <;> simp only [step] at h <;> split at h <;> (try cases h) <;> (try exact hi)
  · split
    · intro h; cases h
    · intro h; cases h
  · intro _; exact Or.inr (by simp)
  · intro _; exact Or.inl rfl

theorem inv_exec {s s' : St} {l : List Act} (h : Exec s l s') (hi : Inv s) : Inv s' := by
  induction h with
  | nil => exact hi
  | cons hs _ ih => exact ih (inv_step hi hs)

/-- Every execution is finite. -/
theorem C85_terminates {s s' : St} {l : List Act} (h : Exec s l s') : l.length + left s' ≤ left s := by
  induction h with
  | nil => simp
  | cons hs _ ih => have := step_left hs; simp only [List.length_cons]; omega

/-- If nothing more can happen then `Listen` returned, or `Serve` refused. -/
theorem C85_partial (b : Bool) (s : St) (l : List Act) (h : Exec (init b) l s) (hstuck : ∀ a, step s a = none) : s.returned = true ∨ s.srv = .refused := by
  have hi := inv_exec h (by intro h; cases h)
  cases hs : s.srv with
  | start => have := hstuck .serve; simp [step, hs] at this
  | tracked => have := hstuck .accept; simp [step, hs] at this
  | refused => exact Or.inr rfl
  | accepting =>
    rcases hi hs with h1 | h1
    · exact Or.inl h1
    · cases hr : s.returned with
      | true => exact Or.inl rfl
      | false => have := hstuck .receive; simp [step, h1, hr] at this

/-- `Serve` refuses only if `Shutdown` came first. -/
theorem C85_refused {b : Bool} {s : St} {l : List Act} (h : Exec (init b) l s) (hr : s.srv = .refused) : s.closed = true ∧ s.started = true := by
  have key : ∀ {s s' : St} {l : List Act}, Exec s l s' → ((s.srv = .refused → s.closed = true) ∧ (s.closed = true → s.started = true)) →
      ((s'.srv = .refused → s'.closed = true) ∧ (s'.closed = true → s'.started = true)) := by
    intro s s' l h
    induction h with
    | nil => exact id
    | @cons s s' s'' a l hs _ ih =>
      intro hi
      apply ih
      obtain ⟨h1, h2⟩ := hi
      cases a <;> simp only [step] at hs <;> split at hs <;> (try cases hs)
      · exact ⟨h1, fun _ => rfl⟩
      · rename_i hc _; exact ⟨fun _ => rfl, fun _ => hc.1⟩
      · refine ⟨fun h => ?_, h2⟩
        by_cases hc : s.closed = true
        · exact hc
        · simp [hc] at h
      · exact ⟨(fun h => by cases h), h2⟩
      · exact ⟨h1, h2⟩
  have := key h ⟨(fun h => by cases h), (fun h => by cases h)⟩
  exact ⟨this.1 hr, this.2 (this.1 hr)⟩

theorem refused_stays {s s' : St} {l : List Act} (h : Exec s l s') : s.srv = .refused → s.chan = 0 → s.returned = false → s'.returned = false := by
  induction h with
  | nil => exact fun _ _ h => h
  | cons hs _ ih =>
    intro h1 h2 h3
    rename_i a _ _
    cases a <;> simp only [step, h1, h2, h3] at hs <;> (try split at hs) <;> (try cases hs) <;> simp_all

/-- C85 is violated: if the program is shutting down, `Shutdown` may be called before `Serve`; then the caller waits forever, whatever happens. -/
theorem C85_violated (b : Bool) : ∃ s l, Exec (init b) l s ∧ ∀ l' s', Exec s l' s' → s'.returned = false := by
  have e : ∀ s : St, s = ⟨true, true, .refused, 0, false⟩ → ∀ l' s', Exec s l' s' → s'.returned = false := by
    intro s hs l' s' h
    subst hs
    exact refused_stays h rfl rfl rfl
  cases b with
  | true => exact ⟨_, [.shutdown, .serve], .cons rfl (.cons rfl (.nil _)), e _ rfl⟩
  | false => exact ⟨_, [.begin, .shutdown, .serve], .cons rfl (.cons rfl (.cons rfl (.nil _))), e _ rfl⟩

/-- C85: `Listen` returns, even if the program begins to shut down in between. -/
example : Exec (init false) [.serve, .begin, .shutdown, .accept, .receive] ⟨true, true, .accepting, 0, true⟩ :=
  .cons rfl (.cons rfl (.cons rfl (.cons rfl (.cons rfl (.nil _)))))

end Verif.Http.Listen

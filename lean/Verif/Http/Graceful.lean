import Verif.Base
/-!
# A graceful shutdown with an http server (http/server.go L121-142, http/ws/handler.go L27-104, shutdown/shutdown.go) as a step machine

`Shutdown` of `net/http` makes `Serve` return at once, while it waits for the requests that are being answered; it does not close connections that became websockets.
`WaitForSignal` begins the shutdown at the first signal and cancels the root context, from which those of all requests and connections come, at the second (shutdown.go L79-118).
The counter is that of the wait group of `shutdown` (C31); holds taken by others are left out.
-/
set_option autoImplicit false
namespace Verif.Http.Graceful

/-- The goroutine that serves: in `Serve`, after it returned, after the hold was released. http/server.go L122-135. -/
inductive Srv where
  | serving | returned | released
deriving DecidableEq

/-- http/server.go L96-146, http/ws/handler.go L32-60. -/
structure St where
  /-- shutdown begun -/
  started : Bool := false
  /-- root context cancelled -/
  cancelled : Bool := false
  srv : Srv := .serving
  /-- requests being answered -/
  requests : Nat := 0
  /-- connections that are websockets, in `Loop` -/
  sockets : Nat := 0
  /-- holds of the shutdown -/
  wg : Nat := 1
  /-- the channel of `shutdown.Done` is closed: the program ends -/
  done : Bool := false
deriving DecidableEq

/-- Steps. http/server.go L121-142, http/ws/handler.go L32-60. -/
inductive Act where
  /-- a request arrives -/
  | request
  /-- its handler returns -/
  | answer
  /-- its handler is that of a websocket: it takes a hold (ws/handler.go L37, L85) -/
  | upgrade
  /-- the peer closes, or the handler fails: `Loop` ends, the hold is released -/
  | hangUp
  /-- `Loop` sees the cancelled context and ends, the hold is released (ws/conn.go L55-56) -/
  | seeCancel
  /-- the first signal -/
  | begin
  /-- `s.Shutdown`: `Serve` returns (server.go L137-142) -/
  | shutdown
  /-- the serving goroutine releases its hold (server.go L123) -/
  | release
  /-- the second signal -/
  | cancel
  /-- `Wait` returns and the channel is closed (shutdown.go L55-63) -/
  | finish
deriving DecidableEq

/-- The state after a step, if it is possible: http/server.go L121-142, http/ws/handler.go L32-60, shutdown/shutdown.go L35-76. -/
def step (s : St) : Act → Option St
  | .request => if s.srv = .serving then some { s with requests := s.requests + 1 } else none
  | .answer => if s.requests > 0 then some { s with requests := s.requests - 1 } else none
  | .upgrade => if s.requests > 0 then some { s with requests := s.requests - 1, sockets := s.sockets + 1, wg := s.wg + 1 } else none
  | .hangUp => if s.sockets > 0 then some { s with sockets := s.sockets - 1, wg := s.wg - 1 } else none
  | .seeCancel => if s.sockets > 0 ∧ s.cancelled then some { s with sockets := s.sockets - 1, wg := s.wg - 1 } else none
  | .begin => if s.started then none else some { s with started := true }
  | .shutdown => if s.started ∧ s.srv = .serving then some { s with srv := .returned } else none
  | .release => if s.srv = .returned then some { s with srv := .released, wg := s.wg - 1 } else none
  | .cancel => if s.started ∧ s.cancelled = false then some { s with cancelled := true } else none
  | .finish => if s.wg = 0 ∧ s.done = false then some { s with done := true } else none

/-- Executions. -/
def run (s : St) : List Act → Option St
  | [] => some s
  | a :: l => (step s a).bind fun s' => run s' l

/-! ### C127 -/

/-- The counter is the number of those who hold. -/
def Inv (s : St) : Prop :=
  s.wg = s.sockets + (if s.srv = .released then 0 else 1) ∧ (s.srv ≠ .serving → s.started = true) ∧ (s.done = true → s.srv = .released) ∧ (s.cancelled = true → s.started = true)

theorem step_inv (s s' : St) (a : Act) (h : Inv s) (hs : step s a = some s') : Inv s' := by
  obtain ⟨h1, h2, h3, h4⟩ := h
  cases a <;> simp only [step] at hs <;> split at hs <;> try cases hs
  · exact ⟨h1, h2, h3, h4⟩
  · exact ⟨h1, h2, h3, h4⟩
  · exact ⟨by simp only; omega, h2, h3, h4⟩
  · exact ⟨by simp only; omega, h2, h3, h4⟩
  · exact ⟨by simp only; omega, h2, h3, h4⟩
  · exact ⟨h1, fun _ => rfl, h3, fun _ => rfl⟩
  · rename_i hc
    refine ⟨?_, fun _ => hc.1, ?_, h4⟩
    · rw [hc.2] at h1
      simpa using h1
    · intro hd
      have := h3 hd
      rw [hc.2] at this; cases this
  · rename_i hc
    refine ⟨?_, fun _ => h2 (by simp [hc]), fun _ => rfl, h4⟩
    rw [hc] at h1
    simp at h1 ⊢
    omega
  · rename_i hc
    exact ⟨h1, h2, h3, fun _ => hc.1⟩
  · rename_i hc
    refine ⟨h1, h2, fun _ => ?_, h4⟩
    by_cases hr : s.srv = .released
    · exact hr
    · rw [if_neg hr] at h1; omega

theorem run_append (l m : List Act) : ∀ s, run s (l ++ m) = (run s l).bind fun s' => run s' m := by
  induction l with
  | nil => intro s; rfl
  | cons a l ih =>
    intro s
    simp only [List.cons_append, run]
    cases step s a with
    | none => rfl
    | some s' => exact ih s'

theorem run_inv (l : List Act) : ∀ s s', Inv s → run s l = some s' → Inv s' := by
  induction l with
  | nil => intro s s' h hr; cases hr; exact h
  | cons a l ih =>
    intro s s' h hr
    simp only [run] at hr
    cases hs : step s a with
    | none => rw [hs] at hr; cases hr
    | some t => rw [hs] at hr; exact ih t s' (step_inv s t a h hs) hr

theorem init_inv : Inv {} := ⟨rfl, fun h => absurd rfl h, (fun h => by cases h), (fun h => by cases h)⟩

/-- **C127.** The shutdown is not complete before it began and the server stopped taking requests; at that moment no websocket is open. -/
theorem C127_sockets_partial (l : List Act) (s s' : St) (h : run {} l = some s) (hf : step s .finish = some s') :
    s.started = true ∧ s.srv = .released ∧ s.sockets = 0 ∧ step s .request = none := by
  obtain ⟨h1, h2, _, _⟩ := run_inv l _ _ init_inv h
  simp only [step] at hf
  split at hf
  · rename_i hc
    have hr : s.srv = .released := by
      by_cases hr : s.srv = .released
      · exact hr
      · rw [if_neg hr] at h1; omega
    refine ⟨h2 (by simp [hr]), hr, ?_, by simp [step, hr]⟩
    omega
  · cases hf

/-- `n` requests are taken. -/
theorem run_requests (n : Nat) : ∀ s : St, s.srv = .serving → run s (List.replicate n .request) = some { s with requests := s.requests + n } := by
  induction n with
  | zero => intro s _; rfl
  | succ n ih =>
    intro s h
    have h1 : step s .request = some { s with requests := s.requests + 1 } := by simp only [step]; rw [if_pos h]
    have h2 := ih { s with requests := s.requests + 1 } h
    simp only [List.replicate_succ, run, h1, Option.bind_some, h2, Option.some.injEq, St.mk.injEq, true_and, and_true]
    omega

/-- **C127, violated.** The shutdown completes, and the program ends, while any number of requests are being answered; one of them may even become a websocket afterwards. -/
theorem C127_requests_violated (n : Nat) :
    (∃ l s, run {} l = some s ∧ s.done = true ∧ s.requests = n) ∧ (∃ l s, run {} l = some s ∧ s.done = true ∧ s.sockets = 1 ∧ s.requests = n) := by
  constructor
  · refine ⟨List.replicate n .request ++ [.begin, .shutdown, .release, .finish], ?_⟩
    rw [run_append, run_requests n _ rfl]
    exact ⟨_, rfl, rfl, by simp⟩
  · refine ⟨List.replicate (n + 1) .request ++ [.begin, .shutdown, .release, .finish, .upgrade], ?_⟩
    rw [run_append, run_requests (n + 1) _ rfl]
    have : run { requests := 0 + (n + 1) } [.begin, .shutdown, .release, .finish, .upgrade] =
        some { started := true, srv := .released, requests := n, sockets := 1, wg := 1, done := true } := by
      simp [run, step]
    exact ⟨_, this, rfl, rfl, rfl⟩

/-- **C127, violated.** As long as a client keeps a websocket open and there is no second signal, the shutdown does not complete, whatever else happens. -/
theorem C127_idle_violated (l m : List Act) (s s' : St) (h : run {} l = some s) (hd : s.done = false) (hc : s.cancelled = false) (hs : s.sockets > 0) (hr : run s m = some s')
    (hm : ∀ a ∈ m, a ≠ .hangUp ∧ a ≠ .cancel) : s'.done = false ∧ s'.sockets ≥ s.sockets := by
  have hi := run_inv l _ _ init_inv h
  clear h
  induction m generalizing s with
  | nil => cases hr; exact ⟨hd, Nat.le_refl _⟩
  | cons a m ih =>
    simp only [run] at hr
    cases ht : step s a with
    | none => rw [ht] at hr; cases hr
    | some t =>
      rw [ht] at hr
      have ha := hm a (by simp)
      have hti := step_inv s t a hi ht
      have key : t.done = false ∧ t.cancelled = false ∧ t.sockets ≥ s.sockets := by
        cases a <;> simp only [step] at ht <;> split at ht <;> try cases ht
        all_goals simp_all
        rename_i hf
        have := hi.1
        omega
      obtain ⟨h1, h2, h3⟩ := key
      have hr : run t m = some s' := hr
      obtain ⟨h4, h5⟩ := ih t h1 h2 (by omega) hr (fun b hb => hm b (by simp [hb])) hti
      exact ⟨h4, by omega⟩

/-- **C127.** After the second signal, the connections end by themselves and the shutdown completes. -/
theorem C127_cancel_partial (l : List Act) (s : St) (h : run {} l = some s) (hd : s.done = false) (hc : s.cancelled = true) :
    ∃ m s', run s m = some s' ∧ s'.done = true ∧ s'.sockets = 0 ∧ ∀ a ∈ m, a = .seeCancel ∨ a = .shutdown ∨ a = .release ∨ a = .finish := by
  have hi := run_inv l _ _ init_inv h
  clear h
  obtain ⟨started, cancelled, srv, requests, sockets, wg, done⟩ := s
  simp only at hd hc
  subst hd hc
  obtain ⟨h1, h2, _, h4⟩ := hi
  simp only [forall_const] at h1 h2 h4
  subst h4
  -- the serving goroutine ends first
  have hsrv : ∃ m, run ⟨true, true, srv, requests, sockets, wg, false⟩ m = some ⟨true, true, .released, requests, sockets, sockets, false⟩ ∧
      ∀ a ∈ m, a = .seeCancel ∨ a = .shutdown ∨ a = .release ∨ a = .finish := by
    cases srv with
    | serving =>
      refine ⟨[.shutdown, .release], ?_, by simp⟩
      simp at h1
      subst h1
      simp [run, step]
    | returned =>
      refine ⟨[.release], ?_, by simp⟩
      simp at h1
      subst h1
      simp [run, step]
    | released =>
      refine ⟨[], ?_, by simp⟩
      simp at h1
      subst h1
      rfl
  have hsock : ∀ n, run ⟨true, true, .released, requests, n, n, false⟩ (List.replicate n .seeCancel ++ [.finish]) = some ⟨true, true, .released, requests, 0, 0, true⟩ := by
    intro n
    induction n with
    | zero => rfl
    | succ n ih =>
      have hstep : step ⟨true, true, .released, requests, n + 1, n + 1, false⟩ .seeCancel = some ⟨true, true, .released, requests, n, n, false⟩ := by
        simp [step]
      simp only [List.replicate_succ, List.cons_append, run, hstep, Option.bind_some]
      exact ih
  obtain ⟨m, hm, ha⟩ := hsrv
  refine ⟨m ++ (List.replicate sockets .seeCancel ++ [.finish]), ⟨true, true, .released, requests, 0, 0, true⟩, ?_, rfl, rfl, ?_⟩
  · rw [run_append, hm]
    exact hsock sockets
  · intro a h
    rcases List.mem_append.1 h with h | h
    · exact ha a h
    · rcases List.mem_append.1 h with h | h
      · exact Or.inl (List.mem_replicate.1 h).2
      · simp at h; simp [h]

/-- A program that ends while a request is being answered. -/
example : run {} [.request, .begin, .shutdown, .release, .finish] = some { started := true, srv := .released, requests := 1, wg := 0, done := true } := by decide
example : run {} [.request, .upgrade, .begin, .shutdown, .release, .finish] = none := by decide
/-- A websocket ends because it sees that the program ends. -/
example : run {} [.request, .upgrade, .begin, .shutdown, .cancel, .release, .seeCancel, .finish] = some { started := true, srv := .released, wg := 0, cancelled := true, done := true } := by decide
example : run {} [.request, .upgrade, .begin, .shutdown, .release, .seeCancel] = none := by decide

end Verif.Http.Graceful

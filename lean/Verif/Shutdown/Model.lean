import Verif.Base
/-!
# /repo/shutdown/shutdown.go: the shutter and the signal loop as step machines

Every atomic operation on shared state (channel close, `WaitGroup` operation, `Once` transition) is one step; any interleaving of steps
is an execution. `sync.WaitGroup` is modelled with its two panics: a negative counter, and being reused before a woken `Wait` has
returned (`sync/waitgroup.go`: "WaitGroup is reused before previous Wait has returned"). Time is a counter of seconds.
-/
set_option autoImplicit false
namespace Verif.Shutdown

/-- `sync.Once`, and where its function is (shutdown.go L36-42) -/
inductive OnceSt where
  | idle
  /-- running, before `close(this.ch)` -/
  | entered
  /-- running, after it -/
  | closed
  | finished
  deriving DecidableEq

/-- The goroutine of L38-41. -/
inductive Timer where
  | absent
  /-- sleeping until the given time -/
  | sleeping (t : Nat)
  /-- ended -/
  | ended (t : Nat)
  deriving DecidableEq

/-- A goroutine started by `done()` (shutdown.go L58-61), and the state of the channel it will close. -/
inductive Waiter where
  /-- blocked in `wg.Wait()`: the counter was positive when it started -/
  | blocked
  /-- woken by the counter reaching zero, not yet resumed -/
  | woken
  /-- `Wait` has returned, the channel is still open -/
  | returned
  /-- the channel is closed -/
  | closed
  deriving DecidableEq

/-- shutdown.go L16-23 `shutter`, the goroutines it started, and the clock. -/
structure St where
  once : OnceSt
  /-- when `ch` was closed (`none`: still open) -/
  ch : Option Nat
  timer : Timer
  /-- when `ch5` was closed -/
  ch5 : Option Nat
  wg : Nat
  waiters : List Waiter
  clock : Nat
  deriving DecidableEq

/-- shutdown.go L27-32 `newShutter`. -/
def St.init : St := { once := .idle, ch := none, timer := .absent, ch5 := none, wg := 0, waiters := [], clock := 0 }

/-- The atomic steps of shutdown.go L35-76. -/
inductive Act where
  /-- one second passes -/
  | tick
  /-- a `begin()` call becomes the one that runs the `Once` function (L36) -/
  | onceEnter
  /-- `close(this.ch)` (L37) -/
  | closeCh
  /-- the timer goroutine is started and the function returns (L38-42) -/
  | onceExit
  /-- a `begin()` call that finds the `Once` done -/
  | beginAgain
  /-- the timer goroutine closes `ch5` (L40) -/
  | closeCh5
  /-- `hold()`, or the first half of `holdAndWait()` (L67, L73) -/
  | hold
  /-- a release function: `wg.Done` -/
  | release
  /-- `done()` starts its goroutine, which calls `wg.Wait` (L57-59) -/
  | done
  /-- a woken `Wait` resumes -/
  | resume (i : Nat)
  /-- `close(ch)` of a `done()` channel (L60) -/
  | closeDone (i : Nat)
  deriving DecidableEq

/-- What a step can do besides succeeding. shutdown.go L35-76. -/
inductive Stop where
  /-- the step cannot be taken now -/
  | disabled
  | panic (p : Panic)
  deriving DecidableEq

/-- One atomic step. shutdown.go L35-76. -/
def St.step (s : St) : Act → Except Stop St
  | .tick => .ok { s with clock := s.clock + 1 }
  | .onceEnter => if s.once = .idle then .ok { s with once := .entered } else .error .disabled
  | .closeCh =>
    if s.once = .entered then
      match s.ch with
      | none => .ok { s with ch := some s.clock, once := .closed }
      | some _ => .error (.panic .closeClosed)
    else .error .disabled
  | .onceExit =>
    if s.once = .closed then .ok { s with once := .finished, timer := .sleeping (s.clock + 5) } else .error .disabled
  | .beginAgain => if s.once = .finished then .ok s else .error .disabled
  | .closeCh5 =>
    match s.timer with
    | .sleeping t =>
      if t ≤ s.clock then
        match s.ch5 with
        | none => .ok { s with ch5 := some s.clock, timer := .ended t }
        | some _ => .error (.panic .closeClosed)
      else .error .disabled
    | _ => .error .disabled
  | .hold => .ok { s with wg := s.wg + 1 }
  | .release =>
    match s.wg with
    | 0 => .error (.panic .negWaitGroup)
    | 1 => .ok { s with wg := 0, waiters := s.waiters.map (fun w => if w = .blocked then .woken else w) }
    | n + 2 => .ok { s with wg := n + 1 }
  | .done => .ok { s with waiters := s.waiters ++ [if s.wg = 0 then .returned else .blocked] }
  | .resume i =>
    match s.waiters[i]? with
    | some .woken => if s.wg = 0 then .ok { s with waiters := s.waiters.set i .returned } else .error (.panic .explicit)
    | _ => .error .disabled
  | .closeDone i =>
    match s.waiters[i]? with
    | some .returned => .ok { s with waiters := s.waiters.set i .closed }
    | _ => .error .disabled

/-- Executions, as the list of steps taken and the states passed through (latest first). shutdown.go L35-76. -/
inductive Exec : List Act → St → List St → Prop where
  | init : Exec [] St.init []
  | step {as : List Act} {s s' : St} {past : List St} (a : Act) : Exec as s past → s.step a = .ok s' → Exec (a :: as) s' (s :: past)

end Verif.Shutdown

import Verif.Shutdown.Model
/-!
# /repo/shutdown/shutdown.go L79-111: `waitForSignal`
-/
set_option autoImplicit false
namespace Verif.Shutdown

/-- What the loop does in reaction to signals. shutdown.go L95-108. -/
inductive Effect where
  | begin
  | cancelRoot
  | exit
  deriving DecidableEq

/-- Where the loop is. shutdown.go L86-110. -/
inductive MPC where
  /-- before the `select`, at the top of the loop (L86-88) -/
  | top
  /-- in the `select`, waiting on the `done()` channel number `w` -/
  | select (w : Nat)
  /-- returned (L91) -/
  | returned
  /-- `os.Exit(-1)` was called (L107) -/
  | exited
  deriving DecidableEq

/-- The state of the program and of the loop: shutdown.go L79-111. -/
structure MSt where
  base : St
  pc : MPC
  /-- the loop variable -/
  i : Nat
  /-- signals in the channel, of capacity 3 (L80); `signal.Notify` drops signals when it is full -/
  queue : Nat
  effects : List Effect

/-- When `waitForSignal` is called: shutdown.go L79-86. -/
def MSt.init : MSt := { base := St.init, pc := .top, i := 0, queue := 0, effects := [] }

/-- The steps: shutdown.go L79-111. -/
inductive MAct where
  /-- anything another goroutine does with the shutter -/
  | env (a : Act)
  /-- a signal is delivered to the process -/
  | signal
  /-- entering the `select`, which evaluates `this.done()` (L88-89) -/
  | loop
  /-- the `done` case (L89-91) -/
  | fin
  /-- the `sigs` case (L95-108) -/
  | sig
  deriving DecidableEq

/-- `this.begin()` as seen by its caller: it runs the `Once` function to the end, or finds it done; it blocks while another caller runs it. shutdown.go L35-43, L99. -/
def St.begin (s : St) : Except Stop St :=
  match s.once with
  | .idle => do
    let s ← s.step .onceEnter
    let s ← s.step .closeCh
    s.step .onceExit
  | .finished => s.step .beginAgain
  | _ => .error .disabled

/-- One step. After `os.Exit` nothing happens. shutdown.go L79-111. -/
def MSt.step (m : MSt) : MAct → Except Stop MSt
  | .env a =>
    if m.pc = .exited then .error .disabled
    else match m.base.step a with
      | .ok s => .ok { m with base := s }
      | .error e => .error e
  | .signal => .ok { m with queue := if m.queue < 3 then m.queue + 1 else m.queue }
  | .loop =>
    match m.pc with
    | .top =>
      match m.base.step .done with
      | .ok s => .ok { m with base := s, pc := .select m.base.waiters.length }
      | .error e => .error e
    | _ => .error .disabled
  | .fin =>
    match m.pc with
    | .select w => if m.base.waiters[w]? = some .closed then .ok { m with pc := .returned } else .error .disabled
    | _ => .error .disabled
  | .sig =>
    match m.pc, m.queue with
    | .select _, q + 1 =>
      match m.i with
      | 0 =>
        match m.base.begin with
        | .ok s => .ok { m with base := s, pc := .top, i := 1, queue := q, effects := m.effects ++ [.begin] }
        | .error e => .error e
      | 1 => .ok { m with pc := .top, i := 2, queue := q, effects := m.effects ++ [.cancelRoot] }
      | _ => .ok { m with pc := .exited, queue := q, effects := m.effects ++ [.exit] }
    | _, _ => .error .disabled

/-- Executions with the steps taken and the states passed through (latest first). shutdown.go L79-111. -/
inductive MExec : List MAct → MSt → List MSt → Prop where
  | init : MExec [] MSt.init []
  | step {as : List MAct} {m m' : MSt} {past : List MSt} (a : MAct) : MExec as m past → m.step a = .ok m' → MExec (a :: as) m' (m :: past)

end Verif.Shutdown

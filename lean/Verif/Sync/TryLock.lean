import Verif.Base
/-!
# Model of /repo/utils/sync/mutex.go `Mutex.TryLock(d)`

Any number of goroutines ("agents", numbered) use one mutex, through plain `Lock`/`Unlock` and through the timed `TryLock`.
Every `TryLock` starts one helper goroutine, which may outlive the call. Steps are single scheduler steps; the timer may fire at any
time after the call starts (the duration is abstracted away). `sync.Mutex` itself only knows whether it is locked; unlocking
an unlocked one and closing a closed channel are panics.
-/
set_option autoImplicit false
namespace Verif.Sync

/-- Program counter of an agent. mutex.go L42-61. -/
inductive APC where
  | idle
  /-- inside plain `Lock()` -/
  | locking
  /-- owns the mutex: plain `Lock()` returned, or `TryLock` returned true -/
  | holds
  /-- mutex.go L55: in the select of `TryLock`, with helper number `h` -/
  | sel (h : Nat)
  /-- mutex.go L57/L59 chosen, the deferred `close(ch)` of L47 still to run, then `TryLock` returns `r` -/
  | closing (h : Nat) (r : Bool)
  deriving DecidableEq

/-- Program counter of a helper goroutine (mutex.go L48-54). -/
inductive HPC where
  /-- L49 blocked in `m.Lock()` -/
  | want
  /-- L50 holds the mutex, blocked receiving from `ch` -/
  | recv
  /-- L51 received a value (`ok`) -/
  | gotOk
  /-- L52 received from the closed channel, about to unlock -/
  | unlock
  | exited
  deriving DecidableEq

/-- A helper goroutine with its own unbuffered channel. mutex.go L46-54. -/
structure Helper where
  pc : HPC
  closed : Bool

/-- The mutex, the goroutines that use it and the helpers: mutex.go L12-14, L42-61. -/
structure Sys where
  locked : Bool
  agents : Nat → APC
  /-- number of helpers started so far -/
  nh : Nat
  helpers : Nat → Helper

/-- Nobody uses the mutex: mutex.go L12-14. -/
def Sys.init : Sys := { locked := false, agents := fun _ => .idle, nh := 0, helpers := fun _ => ⟨.exited, true⟩ }

/-- The steps of mutex.go L42-61, and of plain `Lock` and `Unlock`. -/
inductive Act where
  | lock (a : Nat)
  | acquire (a : Nat)
  | unlock (a : Nat)
  /-- call `TryLock`: L43-L54, then at the select -/
  | try (a : Nat)
  /-- L56: the send meets the helper's receive -/
  | send (a : Nat)
  /-- L58: the timer fired -/
  | timeout (a : Nat)
  /-- L47: deferred close, then return -/
  | close (a : Nat)
  | hacquire (h : Nat)
  /-- L50: receive from the closed channel -/
  | hclosed (h : Nat)
  | hunlock (h : Nat)
  | hexit (h : Nat)

/-- Why a step can not be taken: mutex.go L42-61. -/
inductive SErr where
  | disabled
  | panic (p : Panic)
  deriving DecidableEq

/-- Replacing one of a family; for the goroutines of mutex.go L42-61. -/
def upd {β : Type} (f : Nat → β) (i : Nat) (v : β) : Nat → β := fun j => if j = i then v else f j

/-- One scheduler step; `disabled` when the named goroutine cannot take it. mutex.go L42-61. -/
def Sys.step (s : Sys) : Act → Except SErr Sys
  | .lock a =>
    match s.agents a with
    | .idle => .ok { s with agents := upd s.agents a .locking }
    | _ => .error .disabled
  | .acquire a =>
    match s.agents a, s.locked with
    | .locking, false => .ok { s with locked := true, agents := upd s.agents a .holds }
    | _, _ => .error .disabled
  | .unlock a =>
    match s.agents a with
    | .holds => if s.locked then .ok { s with locked := false, agents := upd s.agents a .idle } else .error (.panic .unlockUnlocked)
    | _ => .error .disabled
  | .try a =>
    match s.agents a with
    | .idle => .ok { s with agents := upd s.agents a (.sel s.nh), nh := s.nh + 1, helpers := upd s.helpers s.nh ⟨.want, false⟩ }
    | _ => .error .disabled
  | .send a =>
    match s.agents a with
    | .sel h =>
      if (s.helpers h).closed then .error (.panic .sendClosed)
      else match (s.helpers h).pc with
        | .recv => .ok { s with agents := upd s.agents a (.closing h true), helpers := upd s.helpers h ⟨.gotOk, (s.helpers h).closed⟩ }
        | _ => .error .disabled
    | _ => .error .disabled
  | .timeout a =>
    match s.agents a with
    | .sel h => .ok { s with agents := upd s.agents a (.closing h false) }
    | _ => .error .disabled
  | .close a =>
    match s.agents a with
    | .closing h r =>
      if (s.helpers h).closed then .error (.panic .closeClosed)
      else .ok { s with agents := upd s.agents a (if r then .holds else .idle), helpers := upd s.helpers h ⟨(s.helpers h).pc, true⟩ }
    | _ => .error .disabled
  | .hacquire h =>
    match (s.helpers h).pc, s.locked with
    | .want, false => .ok { s with locked := true, helpers := upd s.helpers h ⟨.recv, (s.helpers h).closed⟩ }
    | _, _ => .error .disabled
  | .hclosed h =>
    match (s.helpers h).pc, (s.helpers h).closed with
    | .recv, true => .ok { s with helpers := upd s.helpers h ⟨.unlock, true⟩ }
    | _, _ => .error .disabled
  | .hunlock h =>
    match (s.helpers h).pc with
    | .unlock =>
      if s.locked then .ok { s with locked := false, helpers := upd s.helpers h ⟨.exited, (s.helpers h).closed⟩ }
      else .error (.panic .unlockUnlocked)
    | _ => .error .disabled
  | .hexit h =>
    match (s.helpers h).pc with
    | .gotOk => .ok { s with helpers := upd s.helpers h ⟨.exited, (s.helpers h).closed⟩ }
    | _ => .error .disabled

/-- Executing a schedule. mutex.go L42-61. -/
def Sys.exec (s : Sys) : List Act → Except SErr Sys
  | [] => .ok s
  | a :: as =>
    match s.step a with
    | .ok s' => s'.exec as
    | .error e => .error e

/-- Who can be in possession of the mutex. mutex.go L42-61. -/
inductive Holder where
  | agent (a : Nat)
  | helper (h : Nat)
  deriving DecidableEq

/-- Who has the mutex: a goroutine inside its section, or a helper past L49 of mutex.go that has not given it on. -/
def Sys.holding (s : Sys) : Holder → Prop
  | .agent a => s.agents a = .holds ∨ ∃ h, s.agents a = .closing h true
  | .helper h => (s.helpers h).pc = .recv ∨ (s.helpers h).pc = .unlock

end Verif.Sync

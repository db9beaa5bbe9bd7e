import Verif.Base
/-!
# `enc.Pipe` (enc/util.go L34-88)

Two channels, one per direction. A channel has a buffer, and passes a value from a waiting writer to a waiting reader if the buffer is empty. A call that can not complete waits;
a context may be cancelled at any time, and then a call may also return its error, even if it could go on (`select` picks any of the ready cases). So the model says how calls may
complete. Nodes are of any type.
-/
set_option autoImplicit false
namespace Verif.Pipe

variable {α : Type}

/-- A Go channel with the given capacity. enc/util.go L35-39. -/
structure Chan (α : Type) where
  cap : Nat
  buf : List α := []
  closed : Bool := false

/-- The two ends. enc/util.go L43-54. -/
inductive End where
  | a
  | b
deriving DecidableEq

/-- `NewPipe`: what `a` sends, and what `b` sends. enc/util.go L35-54. -/
structure Pipes (α : Type) where
  ab : Chan α
  ba : Chan α

/-- `NewPipe` (L43-54). -/
def newPipe (n : Nat) : Pipes α := ⟨{ cap := n }, { cap := n }⟩

/-- The channel an end sends to. enc/util.go L43-54. -/
def Pipes.send (p : Pipes α) : End → Chan α
  | .a => p.ab
  | .b => p.ba

/-- The channel an end receives from. enc/util.go L43-54. -/
def Pipes.recv (p : Pipes α) : End → Chan α
  | .a => p.ba
  | .b => p.ab

/-- Changing the channel an end sends to. enc/util.go L43-54. -/
def Pipes.setSend (p : Pipes α) (e : End) (c : Chan α) : Pipes α :=
  match e with
  | .a => { p with ab := c }
  | .b => { p with ba := c }

/-- Changing the channel an end receives from. enc/util.go L43-54. -/
def Pipes.setRecv (p : Pipes α) (e : End) (c : Chan α) : Pipes α :=
  match e with
  | .a => { p with ba := c }
  | .b => { p with ab := c }

/-- The other end. enc/util.go L43-54. -/
def End.other : End → End
  | .a => .b
  | .b => .a

/-- How calls complete. enc/util.go L56-88. -/
inductive Ev (α : Type) where
  /-- `Write` returned nil; the node is in the buffer -/
  | write (e : End) (n : α)
  /-- `Write` at one end and `Read` at the other end returned -/
  | pass (e : End) (n : α)
  /-- `Write` returned `ErrClosedPipe` -/
  | writeClosed (e : End) (n : α)
  /-- `Write` returned the context's error -/
  | writeCancelled (e : End) (n : α)
  /-- `Read` returned a node from the buffer -/
  | read (e : End) (n : α)
  /-- `Read` returned EOF -/
  | eof (e : End)
  /-- `Read` returned the context's error -/
  | readCancelled (e : End)
  /-- `Close` returned, nil in any case -/
  | close (e : End)

/-- The steps (L56-88). Sending to a closed channel panics, which becomes `ErrClosedPipe`; closing it again panics, which is dropped. -/
inductive Step : Pipes α → Ev α → Pipes α → Prop where
  | write {p : Pipes α} {e : End} {n : α} : (p.send e).closed = false → (p.send e).buf.length < (p.send e).cap →
      Step p (.write e n) (p.setSend e { p.send e with buf := (p.send e).buf ++ [n] })
  | pass {p : Pipes α} {e : End} {n : α} : (p.send e).closed = false → (p.send e).buf = [] → Step p (.pass e n) p
  | writeClosed {p : Pipes α} {e : End} {n : α} : (p.send e).closed = true → Step p (.writeClosed e n) p
  | writeCancelled {p : Pipes α} {e : End} {n : α} : Step p (.writeCancelled e n) p
  | read {p : Pipes α} {e : End} {n : α} {l : List α} : (p.recv e).buf = n :: l → Step p (.read e n) (p.setRecv e { p.recv e with buf := l })
  | eof {p : Pipes α} {e : End} : (p.recv e).buf = [] → (p.recv e).closed = true → Step p (.eof e) p
  | readCancelled {p : Pipes α} {e : End} : Step p (.readCancelled e) p
  | close {p : Pipes α} {e : End} : Step p (.close e) (p.setSend e { p.send e with closed := true })

/-- Executions. enc/util.go L56-88. -/
inductive Run : Pipes α → List (Ev α) → Pipes α → Prop where
  | nil (p : Pipes α) : Run p [] p
  | cons {p p' p'' : Pipes α} {e : Ev α} {tr : List (Ev α)} : Step p e p' → Run p' tr p'' → Run p (e :: tr) p''

/-! ### what is seen from outside -/

/-- What an end wrote with success. enc/util.go L68-80. -/
def Ev.wrote (e : End) : Ev α → List α
  | .write e' n | .pass e' n => if e' = e then [n] else []
  | _ => []

/-- What an end read. enc/util.go L56-66. -/
def Ev.got (e : End) : Ev α → List α
  | .read e' n => if e' = e then [n] else []
  | .pass e' n => if e'.other = e then [n] else []
  | _ => []

end Verif.Pipe

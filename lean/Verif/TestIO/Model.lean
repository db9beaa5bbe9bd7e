import Verif.Base
/-!
# The buffered pipe for tests (test/io.go)

Every method holds the mutex from beginning to end, but for `Read`, which gives it up while it waits for the condition. So a method is one step, and a `Read` that waits is one
step that parks the reader, and another when it has been woken. `Signal` wakes one of the parked readers, whichever. Bytes are of any type.
-/
set_option autoImplicit false
namespace Verif.TestIO

variable {α : Type}

/-- The fields (L9-18), the readers that wait, with the size of their buffer, and those that were woken and must look again. -/
structure Buf (α : Type) where
  closed : Bool := false
  toRead : List (List α) := []
  written : List (List α) := []
  parked : List (Nat × Nat) := []
  woken : List (Nat × Nat) := []

/-- What a `Read` gives: bytes, or EOF. test/io.go L53-79. -/
inductive ReadRes (α : Type) where
  | data (l : List α)
  | eof
deriving DecidableEq

/-- One look at the buffer with `size > 0` (L62-72): copy from the first chunk, EOF, or nothing yet. -/
def look (b : Buf α) (size : Nat) : Option (ReadRes α × Buf α) :=
  match b.toRead with
  | p :: rest =>
    let ct := min size p.length
    some (.data (p.take ct), { b with toRead := if ct < p.length then p.drop ct :: rest else rest })
  | [] => if b.closed then some (.eof, b) else none

/-- What happens. test/io.go L29-108. -/
inductive Ev (α : Type) where
  /-- `Append`, and the reader that `Signal` wakes, if any is parked -/
  | append (p : List α) (wake : Option (Nat × Nat))
  /-- `Append` on a closed buffer -/
  | appendPanic (p : List α)
  /-- `SetReadClosed` -/
  | setReadClosed
  /-- `Read` with an empty buffer: 0 bytes, or EOF -/
  | readNone (eof : Bool)
  /-- a `Read` that returns at once, or after waiting -/
  | read (who size : Nat) (res : ReadRes α)
  /-- a `Read` that finds nothing, and waits -/
  | park (who size : Nat)
  /-- a woken reader returns -/
  | resume (who size : Nat) (res : ReadRes α)
  /-- a woken reader finds nothing again -/
  | repark (who size : Nat)
  /-- `Write`: the count, or ErrClosedPipe -/
  | write (p : List α) (ok : Bool)
  /-- `Close`: nil, or ErrClosedPipe -/
  | close (ok : Bool)

/-- The steps (L29-104). -/
inductive Step : Buf α → Ev α → Buf α → Prop where
  | appendNone {b : Buf α} {p : List α} : b.closed = false → b.parked = [] → Step b (.append p none) { b with toRead := b.toRead ++ [p] }
  | append {b : Buf α} {p : List α} {l l' : List (Nat × Nat)} {w : Nat × Nat} : b.closed = false → b.parked = l ++ w :: l' →
      Step b (.append p (some w)) { b with toRead := b.toRead ++ [p], parked := l ++ l', woken := b.woken ++ [w] }
  | appendPanic {b : Buf α} {p : List α} : b.closed = true → Step b (.appendPanic p) b
  | setReadClosed {b : Buf α} : Step b .setReadClosed { b with closed := true, parked := [], woken := b.woken ++ b.parked }
  | readNone {b : Buf α} : Step b (.readNone (b.toRead.isEmpty && b.closed)) b
  | read {b b' : Buf α} {who size : Nat} {res : ReadRes α} : 0 < size → look b size = some (res, b') → Step b (.read who size res) b'
  | park {b : Buf α} {who size : Nat} : 0 < size → look b size = none → Step b (.park who size) { b with parked := b.parked ++ [(who, size)] }
  | resume {b b' : Buf α} {who size : Nat} {res : ReadRes α} {l l' : List (Nat × Nat)} : b.woken = l ++ (who, size) :: l' → look b size = some (res, b') →
      Step b (.resume who size res) { b' with woken := l ++ l' }
  | repark {b : Buf α} {who size : Nat} {l l' : List (Nat × Nat)} : b.woken = l ++ (who, size) :: l' → look b size = none →
      Step b (.repark who size) { b with woken := l ++ l', parked := b.parked ++ [(who, size)] }
  | writeNone {b : Buf α} : Step b (.write [] true) b
  | write {b : Buf α} {p : List α} : p ≠ [] → b.closed = false → Step b (.write p true) { b with written := b.written ++ [p] }
  | writeClosed {b : Buf α} {p : List α} : p ≠ [] → b.closed = true → Step b (.write p false) b
  | close {b : Buf α} : b.closed = false → Step b (.close true) { b with closed := true }
  | closeAgain {b : Buf α} : b.closed = true → Step b (.close false) b

/-- Executions. test/io.go L29-108. -/
inductive Run : Buf α → List (Ev α) → Buf α → Prop where
  | nil (b : Buf α) : Run b [] b
  | cons {b b' b'' : Buf α} {e : Ev α} {tr : List (Ev α)} : Step b e b' → Run b' tr b'' → Run b (e :: tr) b''

/-! ### what is seen from outside -/

/-- The bytes appended. test/io.go L29-37. -/
def Ev.appended : Ev α → List α
  | .append p _ => p
  | _ => []

/-- The bytes a reader got. test/io.go L53-79. -/
def Ev.got : Ev α → List α
  | .read _ _ (.data l) | .resume _ _ (.data l) => l
  | _ => []

/-- A reader got EOF. test/io.go L53-79. -/
def Ev.isEof : Ev α → Prop
  | .read _ _ .eof | .resume _ _ .eof | .readNone true => True
  | _ => False

/-- The bytes written. test/io.go L87-98. -/
def Ev.wrote : Ev α → List (List α)
  | .write (a :: p) true => [a :: p]
  | _ => []

/-- The read side is closed. test/io.go L45-50, L100-108. -/
def Ev.closes : Ev α → Prop
  | .setReadClosed | .close true => True
  | _ => False

end Verif.TestIO

import Verif.Base
/-!
# /repo/utils/io.go: `ReadAll`

The reader goroutine and the caller's `select` are two processes whose atomic steps interleave in any order with the cancellation of
the context. Each `out.Write` / `out.Bytes` is one atomic step: the data race between them (the goroutine may still be writing when
a cancelled caller reads the buffer) is not modelled below that granularity.
-/
set_option autoImplicit false
namespace Verif.Utils

/-- Errors a reader can report: `io.EOF` (compared with `==`) or another one. io.go L24, L36. -/
inductive RErr where
  | eof
  | other (id : Nat)
  deriving DecidableEq

/-- What the `n`-th `Read` call delivers: the bytes copied to the buffer (at most 8192, by the `io.Reader` contract) and the error. io.go L23. -/
abbrev Reader := Nat → List UInt8 × Option RErr

/-- The error returned by `ReadAll`: none, `"timeout: %w"` or `"ReadAll: %w"`. io.go L31-40. -/
inductive RResult where
  | ok
  | timeout
  | failed (id : Nat)
  deriving DecidableEq

/-- Where the reader goroutine is. io.go L20-30. -/
inductive RPC where
  /-- at the loop test `c.Err() == nil` (io.go L22) -/
  | check
  /-- in `r.Read` (L23) -/
  | reading
  /-- returned -/
  | exited
  deriving DecidableEq

/-- The shared state of one `ReadAll` call. io.go L14-30. -/
structure RS where
  /-- number of completed `Read` calls -/
  i : Nat
  out : List UInt8
  cancelled : Bool
  pc : RPC
  /-- the channel of capacity 1 -/
  ch : Option RErr
  /-- what the caller returned -/
  ret : Option (List UInt8 × RResult)
  /-- how often the `close` callback ran (deferred, io.go L16-18) -/
  closes : Nat
  deriving DecidableEq

/-- io.go L14-20 -/
def RS.init : RS := { i := 0, out := [], cancelled := false, pc := .check, ch := none, ret := none, closes := 0 }

/-- One atomic step. io.go L20-40. -/
inductive RAct where
  /-- the context is cancelled or its deadline passes -/
  | cancel
  /-- the goroutine evaluates the loop condition -/
  | check
  /-- the goroutine's `Read` returns and its result is handled -/
  | read
  /-- the caller takes the `c.Done()` case -/
  | done
  /-- the caller takes the `<-ch` case -/
  | recv
  deriving DecidableEq

/-- /repo/utils/io.go L13-41: the step, or `none` when it is not enabled. -/
def RS.step (r : Reader) (s : RS) : RAct → Option RS
  | .cancel => some { s with cancelled := true }
  | .check =>
    match s.pc with
    | .check => some { s with pc := if s.cancelled then .exited else .reading }
    | _ => none
  | .read =>
    match s.pc with
    | .reading =>
      match r s.i with
      | (_, some e) => some { s with i := s.i + 1, ch := some e, pc := .exited }
      | (bs, none) => some { s with i := s.i + 1, out := s.out ++ bs, pc := .check }
    | _ => none
  | .done =>
    match s.ret with
    | none => if s.cancelled then some { s with ret := some (s.out, .timeout), closes := s.closes + 1 } else none
    | some _ => none
  | .recv =>
    match s.ret, s.ch with
    | none, some .eof => some { s with ch := none, ret := some (s.out, .ok), closes := s.closes + 1 }
    | none, some (.other id) => some { s with ch := none, ret := some (s.out, .failed id), closes := s.closes + 1 }
    | _, _ => none

/-- States reachable by some interleaving. io.go L13-41. -/
inductive RS.Reach (r : Reader) : RS → Prop where
  | init : RS.Reach r RS.init
  | step {s s' : RS} (a : RAct) : RS.Reach r s → s.step r a = some s' → RS.Reach r s'

/-- The bytes delivered by the first `n` calls. io.go L23-28. -/
def delivered (r : Reader) : Nat → List UInt8
  | 0 => []
  | n + 1 => delivered r n ++ (r n).1

/-- None of the first `n` calls reported an error. io.go L23-27. -/
def clean (r : Reader) (n : Nat) : Prop := ∀ k, k < n → (r k).2 = none

end Verif.Utils

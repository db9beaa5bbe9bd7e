import Verif.Base
/-!
# What is logged when a websocket ends (C144)

`Loop` (http/ws/conn.go L26-70) and its caller (http/ws/handler.go L56-60, L88-92), as far as the log goes. Two goroutines; an execution is a list of actions, of which those that are not possible are excluded.
-/
set_option autoImplicit false
namespace Verif.Ws.EndLog

/-- Why `Read` fails: the connection ended (`NewFrameReader` returns `io.EOF` itself), the peer sent a close frame (`ctx.WrapError(c, io.EOF)`, ws.go L91), anything else. -/
inductive RErr where
  | eof
  | closeFrame
  | other
deriving DecidableEq

/-- `switch err { case io.EOF:` compares values, and does not unwrap. conn.go L31-32. -/
def RErr.isEOF : RErr → Bool
  | .eof => true
  | _ => false

/-- How `Loop` returns: conn.go L54, L57, L65. There is no other `return`. -/
inductive Ret where
  | cancelled
  | inboxClosed
  | closing
deriving DecidableEq

/-- The lines logged: conn.go L33, L37, L44, handler.go L59, L91. -/
inductive Line where
  | inboxEOF
  | inboxErr (e : RErr)
  /-- `inbox: <nil>` -/
  | inboxNil
  | loop (r : Ret)
deriving DecidableEq

inductive Level where
  | debug
  | warn
deriving DecidableEq

/-- conn.go L33, L37, L44, handler.go L59, L91. -/
def Line.level : Line → Level
  | .inboxEOF => .debug
  | _ => .warn

/-- The reading goroutine: conn.go L28-49. -/
inductive Rd where
  | reading
  | sending
  | done
deriving DecidableEq

/-- The loop: conn.go L51-69. -/
inductive Mn where
  | waiting
  | handling
  | returned (r : Ret)
deriving DecidableEq

structure St where
  rd : Rd := .reading
  mn : Mn := .waiting
  cancelled : Bool := false
  log : List Line := []
deriving DecidableEq

/-- conn.go L26-70. -/
inductive Act where
  | readNode
  | readErr (e : RErr)
  | giveUp
  | cancel
  | handoff
  | handled (ok : Bool)
  | seeCancel
  | seeClosed
deriving DecidableEq

/-- The log line of a failed `Read`: conn.go L32-39. -/
def errLines (e : RErr) (cancelled : Bool) : List Line :=
  if e.isEOF then [.inboxEOF] else if cancelled then [] else [.inboxErr e]

/-- `Loop` returns, its error, which is never nil, is logged by the caller: conn.go L54, L57, L65, handler.go L57-60. -/
def St.ret (s : St) (r : Ret) : St := { s with mn := .returned r, log := s.log ++ [.loop r] }

/-- conn.go L26-70. -/
def step (s : St) : Act → Option St
  | .readNode => if s.rd = .reading then some { s with rd := .sending } else none
  | .readErr e => if s.rd = .reading then some { s with rd := .done, log := s.log ++ errLines e s.cancelled } else none
  | .giveUp => if s.rd = .sending ∧ s.cancelled = true then some { s with rd := .done, log := s.log ++ [.inboxNil] } else none
  | .cancel => some { s with cancelled := true }
  | .handoff => if s.rd = .sending ∧ s.mn = .waiting then some { s with rd := .reading, mn := .handling } else none
  | .handled ok => if s.mn = .handling then some (if ok then { s with mn := .waiting } else s.ret .closing) else none
  | .seeCancel => if s.mn = .waiting ∧ s.cancelled = true then some (s.ret .cancelled) else none
  | .seeClosed => if s.mn = .waiting ∧ s.rd = .done then some (s.ret .inboxClosed) else none

def run : St → List Act → Option St
  | s, [] => some s
  | s, a :: l => (step s a).bind fun s => run s l

/-! ### specification -/

/-- The lines of the caller. -/
def loopLines (l : List Line) : List Line := l.filter fun | .loop _ => true | _ => false
/-- The lines of the reading goroutine. -/
def readLines (l : List Line) : List Line := l.filter fun | .loop _ => false | _ => true

/-- The error of the read that failed, if one did. -/
def failure : List Act → Option RErr
  | [] => none
  | .readErr e :: _ => some e
  | _ :: l => failure l

/-- The context was cancelled before the read failed. -/
def cancelledFirst : List Act → Bool
  | [] => false
  | .readErr _ :: _ => false
  | .cancel :: _ => true
  | _ :: l => cancelledFirst l

/-! ### lemmas -/

theorem loopLines_append (a b : List Line) : loopLines (a ++ b) = loopLines a ++ loopLines b := by simp [loopLines]
theorem readLines_append (a b : List Line) : readLines (a ++ b) = readLines a ++ readLines b := by simp [readLines]

theorem errLines_read (e : RErr) (c : Bool) : loopLines (errLines e c) = [] ∧ readLines (errLines e c) = errLines e c := by
  cases e <;> cases c <;> decide

theorem loop_inv (acts : List Act) : ∀ (s s' : St), run s acts = some s' →
    loopLines s.log = (match s.mn with | .returned r => [.loop r] | _ => []) → loopLines s'.log = (match s'.mn with | .returned r => [.loop r] | _ => []) := by
  induction acts with
  | nil => intro s s' h hi; simp only [run, Option.some.injEq] at h; subst h; exact hi
  | cons a l ih =>
    intro s s' h hi
    simp only [run] at h
    cases hs : step s a with
    | none => rw [hs] at h; cases h
    | some s1 =>
      rw [hs] at h
      refine ih s1 s' h ?_
      cases a with
      | readNode => simp only [step] at hs; split at hs <;> cases hs; exact hi
      | readErr e => simp only [step] at hs; split at hs <;> cases hs; simp only [loopLines_append, (errLines_read e _).1, List.append_nil]; exact hi
      | giveUp => simp only [step] at hs; split at hs <;> cases hs; simp only [loopLines_append]; rw [hi]; simp [loopLines]
      | cancel => simp only [step] at hs; cases hs; exact hi
      | handoff =>
        simp only [step] at hs; split at hs <;> cases hs
        rename_i hc; rw [hc.2] at hi; exact hi
      | handled ok =>
        simp only [step] at hs; split at hs <;> cases hs
        rename_i hc; rw [hc] at hi
        cases ok with
        | true => exact hi
        | false => simp only [Bool.false_eq_true, if_false, St.ret, loopLines_append, hi]; rfl
      | seeCancel =>
        simp only [step] at hs; split at hs <;> cases hs
        rename_i hc; rw [hc.1] at hi
        simp only [St.ret, loopLines_append, hi]; rfl
      | seeClosed =>
        simp only [step] at hs; split at hs <;> cases hs
        rename_i hc; rw [hc.1] at hi
        simp only [St.ret, loopLines_append, hi]; rfl

theorem done_inv (acts : List Act) : ∀ (s s' : St), run s acts = some s' → s.rd = .done → s'.rd = .done ∧ readLines s'.log = readLines s.log ∧ failure acts = none := by
  induction acts with
  | nil => intro s s' h hi; simp only [run, Option.some.injEq] at h; subst h; exact ⟨hi, rfl, rfl⟩
  | cons a l ih =>
    intro s s' h hi
    simp only [run] at h
    cases hs : step s a with
    | none => rw [hs] at h; cases h
    | some s1 =>
      rw [hs] at h
      have key : s1.rd = .done ∧ readLines s1.log = readLines s.log ∧ failure (a :: l) = failure l := by
        cases a with
        | readNode => simp [step, hi] at hs
        | readErr e => simp [step, hi] at hs
        | giveUp => simp [step, hi] at hs
        | cancel => simp only [step] at hs; cases hs; exact ⟨hi, rfl, rfl⟩
        | handoff => simp [step, hi] at hs
        | handled ok =>
          simp only [step] at hs; split at hs <;> cases hs
          cases ok with
          | true => exact ⟨hi, rfl, rfl⟩
          | false => exact ⟨hi, by simp [St.ret, readLines], rfl⟩
        | seeCancel => simp only [step] at hs; split at hs <;> cases hs; exact ⟨hi, by simp [St.ret, readLines], rfl⟩
        | seeClosed => simp only [step] at hs; split at hs <;> cases hs; exact ⟨hi, by simp [St.ret, readLines], rfl⟩
      obtain ⟨h1, h2, h3⟩ := ih s1 s' h key.1
      exact ⟨h1, h2.trans key.2.1, key.2.2.trans h3⟩

theorem read_inv (acts : List Act) : ∀ (s s' : St), run s acts = some s' → s.rd ≠ .done → readLines s.log = [] →
    readLines s'.log = (match failure acts with
      | some e => errLines e (s.cancelled || cancelledFirst acts)
      | none => if s'.rd = .done then [.inboxNil] else []) ∧ (failure acts ≠ none → s'.rd = .done) := by
  induction acts with
  | nil =>
    intro s s' h hd hi
    simp only [run, Option.some.injEq] at h; subst h
    simp only [failure, hd, if_false]
    exact ⟨hi, fun h => absurd rfl h⟩
  | cons a l ih =>
    intro s s' h hd hi
    simp only [run] at h
    cases hs : step s a with
    | none => rw [hs] at h; cases h
    | some s1 =>
      rw [hs] at h
      simp only [Option.bind_some] at h
      cases a with
      | readNode =>
        simp only [step] at hs; split at hs <;> cases hs
        have := ih _ s' h
        exact this (by simp) hi
      | readErr e =>
        simp only [step] at hs; split at hs <;> cases hs
        obtain ⟨h1, h2, h3⟩ := done_inv l _ s' h rfl
        simp only [failure, cancelledFirst, Bool.or_false]
        refine ⟨?_, fun _ => h1⟩
        rw [h2, readLines_append, hi, (errLines_read e _).2, List.nil_append]
      | giveUp =>
        simp only [step] at hs; split at hs <;> cases hs
        obtain ⟨h1, h2, h3⟩ := done_inv l _ s' h rfl
        simp only [failure, h3]
        refine ⟨?_, fun h => absurd rfl h⟩
        rw [h2, readLines_append, hi, if_pos h1]; rfl
      | cancel =>
        simp only [step] at hs; cases hs
        have := ih _ s' h
        have := this hd hi
        simpa [failure, cancelledFirst] using this
      | handoff =>
        simp only [step] at hs; split at hs <;> cases hs
        have := ih _ s' h
        exact this (by simp) hi
      | handled ok =>
        simp only [step] at hs; split at hs <;> cases hs
        cases ok with
        | true => have := ih _ s' h; exact this hd hi
        | false => have := ih _ s' h; exact this hd (by simp [St.ret, readLines_append, hi]; rfl)
      | seeCancel =>
        simp only [step] at hs; split at hs <;> cases hs
        have := ih _ s' h
        exact this hd (by simp [St.ret, readLines_append, hi]; rfl)
      | seeClosed =>
        simp only [step] at hs; split at hs
        · rename_i hc; exact absurd hc.2 hd
        · cases hs

/-! ### C144 -/

/-- C144, violated: whenever a connection has ended, however it ended, exactly one warning says so: `Loop` has no way to return without an error. -/
theorem C144_always_violated (acts : List Act) (s : St) (h : run {} acts = some s) (r : Ret) (hr : s.mn = .returned r) : loopLines s.log = [.loop r] ∧ (Line.loop r).level = .warn := by
  have := loop_inv acts {} s h rfl
  rw [hr] at this
  exact ⟨this, rfl⟩

/-- C144: and there is none before. -/
theorem C144_quiet (acts : List Act) (s : St) (h : run {} acts = some s) (hr : ∀ r, s.mn ≠ .returned r) : loopLines s.log = [] := by
  have := loop_inv acts {} s h rfl
  cases hm : s.mn with
  | returned r => exact absurd hm (hr r)
  | waiting => rw [hm] at this; exact this
  | handling => rw [hm] at this; exact this

/-- C144: the reading goroutine logs once, when it ends: nothing if the context had been cancelled and a read failed; otherwise the error of the read. -/
theorem C144_reader_partial (acts : List Act) (s : St) (h : run {} acts = some s) :
    (failure acts = none → s.rd ≠ .done → readLines s.log = []) ∧
    (∀ e, failure acts = some e → e ≠ .eof → cancelledFirst acts = true → readLines s.log = []) ∧
    (∀ e, failure acts = some e → e ≠ .eof → cancelledFirst acts = false → readLines s.log = [.inboxErr e]) := by
  obtain ⟨h1, _⟩ := read_inv acts {} s h (by decide) rfl
  refine ⟨fun hf hd => ?_, fun e hf he hc => ?_, fun e hf he hc => ?_⟩
  · rw [hf] at h1; simpa [hd] using h1
  · rw [hf] at h1; simp only [hc, Bool.or_true] at h1; rw [h1]; cases e <;> first | rfl | exact absurd rfl he
  · rw [hf] at h1; simp only [hc, Bool.or_false] at h1; rw [h1]; cases e <;> first | rfl | exact absurd rfl he

/-- C144, violated: a peer that closes the connection as it should causes a warning of the reader, one that just drops it does not. In every execution without cancellation. -/
theorem C144_polite_violated (acts acts' : List Act) (s s' : St) (h : run {} acts = some s) (h' : run {} acts' = some s') (hf : failure acts = some .closeFrame) (hf' : failure acts' = some .eof)
    (hc : cancelledFirst acts = false) : readLines s.log = [.inboxErr .closeFrame] ∧ (∀ l ∈ readLines s.log, l.level = .warn) ∧ readLines s'.log = [.inboxEOF] ∧ ∀ l ∈ readLines s'.log, l.level = .debug := by
  have a := (C144_reader_partial acts s h).2.2 _ hf (by decide) hc
  have b : readLines s'.log = [.inboxEOF] := by
    obtain ⟨h1, _⟩ := read_inv acts' {} s' h' (by decide) rfl
    rw [hf'] at h1; exact h1
  rw [a, b]
  exact ⟨rfl, by decide, rfl, by decide⟩

/-- C144, violated: a reader that has a node nobody takes when the context is cancelled warns of an error that is nil. -/
theorem C144_nil_violated (acts : List Act) (s : St) (h : run {} acts = some s) (hf : failure acts = none) (hd : s.rd = .done) : readLines s.log = [.inboxNil] := by
  obtain ⟨h1, _⟩ := read_inv acts {} s h (by decide) rfl
  rw [hf] at h1; simpa [hd] using h1

/-- A message, a close frame, the end; and a connection that is cancelled while a message waits. -/
example : (run {} [.readNode, .handoff, .readErr .closeFrame, .handled true, .seeClosed]).map St.log = some [.inboxErr .closeFrame, .loop .inboxClosed]
    ∧ (run {} [.readNode, .handoff, .readNode, .cancel, .giveUp, .handled true, .seeCancel]).map St.log = some [.inboxNil, .loop .cancelled]
    ∧ (run {} [.readNode, .handoff, .readErr .eof, .handled true, .seeClosed]).map St.log = some [.inboxEOF, .loop .inboxClosed]
    ∧ run {} [.seeClosed] = none := by decide

end Verif.Ws.EndLog

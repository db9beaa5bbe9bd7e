import Verif.Base
/-!
# The test client for RPC over websockets (http/ws/test.go)

One channel opened by `TestClient.Open`, used by one goroutine that calls one method after the other, and the server's loop, which handles the frames in order and delivers what
it sends by calling the client's function (L43-57). A call ends with one "return" frame if the method succeeds, with a "return" and an "error" frame if it fails (reflect.go
L42-57, channel.go L44-52). Calls are numbered; the callback returns nil, and the context is not cancelled.
-/
set_option autoImplicit false
namespace Verif.Ws.Test

/-- A result put into `ech` (L94): of which call, and whether it is an error. -/
structure Result where
  call : Nat
  failed : Bool
deriving DecidableEq

/-- The state: the next or current call, whether the client waits for its result (L125-130), the frames not yet handled (L63), the results the server is about to deliver, and `ech` (capacity 1). -/
structure St where
  call : Nat := 0
  waiting : Bool := false
  inbox : List Nat := []
  offers : List Result := []
  ech : Option Result := none
deriving DecidableEq

/-- The results delivered for a call. reflect.go L42-57, test.go L92-137. -/
def results (fails : Nat → Bool) (k : Nat) : List Result := if fails k then [⟨k, true⟩, ⟨k, true⟩] else [⟨k, false⟩]

/-- Steps; a call that returns shows its number and the result it got. test.go L43-57, L92-137. -/
inductive Step (fails : Nat → Bool) : St → List (Nat × Result) → St → Prop where
  /-- the client calls (L117-121) -/
  | send {s : St} : s.waiting = false → Step fails s [] { s with waiting := true, inbox := s.inbox ++ [s.call] }
  /-- the server takes the frame and runs the method -/
  | handle {s : St} {k : Nat} {l : List Nat} : s.offers = [] → s.inbox = k :: l → Step fails s [] { s with inbox := l, offers := results fails k }
  /-- a result is put into the channel (L102-103) -/
  | offer {s : St} {r : Result} {l : List Result} : s.offers = r :: l → s.ech = none → Step fails s [] { s with offers := l, ech := some r }
  /-- or dropped because it is full (L104) -/
  | drop {s : St} {r r' : Result} {l : List Result} : s.offers = r :: l → s.ech = some r' → Step fails s [] { s with offers := l }
  /-- the call returns (L126-127) -/
  | recv {s : St} {r : Result} : s.waiting = true → s.ech = some r → Step fails s [(s.call, r)] { s with waiting := false, call := s.call + 1, ech := none }

/-- Executions, with the results calls returned: test.go L92-137. -/
inductive Exec (fails : Nat → Bool) : List (Nat × Result) → St → Prop where
  | nil : Exec fails [] { }
  | snoc {tr es : List (Nat × Result)} {s s' : St} : Exec fails tr s → Step fails s es s' → Exec fails (tr ++ es) s'

/-- Where the result of the current call is. test.go L92-137. -/
def Inv (s : St) : Prop :=
  if s.waiting then
    (s.inbox = [s.call] ∧ s.offers = [] ∧ s.ech = none) ∨ (s.inbox = [] ∧ s.offers = [⟨s.call, false⟩] ∧ s.ech = none) ∨ (s.inbox = [] ∧ s.offers = [] ∧ s.ech = some ⟨s.call, false⟩)
  else s.inbox = [] ∧ s.offers = [] ∧ s.ech = none

/-- C93: as long as no method fails, every call returns its own result, and all calls have returned in order. -/
theorem C93_own_result_partial (fails : Nat → Bool) (hf : ∀ k, fails k = false) (tr : List (Nat × Result)) (s : St) (h : Exec fails tr s) :
    tr = (List.range s.call).map (fun k => (k, ⟨k, false⟩)) ∧ Inv s := by
  induction h with
  | nil => exact ⟨rfl, by simp [Inv]⟩
  | @snoc tr es s s' _ hs ih =>
    obtain ⟨h1, h2⟩ := ih
    unfold Inv at h2
    cases hs with
    | send hw => simp only [hw, Bool.false_eq_true, if_false] at h2; simp [h1, Inv, h2]
    | handle ho hi =>
      split at h2
      · rcases h2 with h2 | h2 | h2
        · obtain ⟨a, b, c⟩ := h2
          rw [hi] at a; injection a with a1 a2; subst a1 a2
          rename_i hw
          simp [h1, Inv, hw, results, hf, c]
        · rw [hi] at h2; simp at h2
        · rw [hi] at h2; simp at h2
      · rw [hi] at h2; simp at h2
    | offer ho he =>
      split at h2
      · rcases h2 with h2 | h2 | h2
        · rw [ho] at h2; simp at h2
        · obtain ⟨a, b, c⟩ := h2
          rw [ho] at b; injection b with b1 b2; subst b1 b2
          rename_i hw
          simp [h1, Inv, hw, a]
        · rw [ho] at h2; simp at h2
      · rw [ho] at h2; simp at h2
    | drop ho he =>
      split at h2
      · rcases h2 with h2 | h2 | h2
        · rw [ho] at h2; simp at h2
        · rw [he] at h2; simp at h2
        · rw [ho] at h2; simp at h2
      · rw [ho] at h2; simp at h2
    | recv hw he =>
      rw [if_pos hw] at h2
      rcases h2 with h2 | h2 | h2
      · rw [he] at h2; simp at h2
      · rw [he] at h2; simp at h2
      · obtain ⟨a, b, c⟩ := h2
        rw [he] at c; injection c with c; subst c
        simp [h1, Inv, a, b, List.range_succ]

/-- C93: if the first method fails, the second call may return the first one's error, though its own method succeeds. -/
theorem C93_violated : ∃ (tr : List (Nat × Result)) (s : St), Exec (fun k => k == 0) tr s ∧ (1, ⟨0, true⟩) ∈ tr := by
  have e0 : Exec (fun k => k == 0) [] _ := .snoc .nil (.send rfl)
  have e1 := Exec.snoc e0 (.handle (k := 0) (l := []) rfl rfl)
  have e2 := Exec.snoc e1 (.offer (r := ⟨0, true⟩) (l := [⟨0, true⟩]) rfl rfl)
  have e3 := Exec.snoc e2 (.recv (r := ⟨0, true⟩) rfl rfl)
  have e4 := Exec.snoc e3 (.offer (r := ⟨0, true⟩) (l := []) rfl rfl)
  have e5 := Exec.snoc e4 (.send rfl)
  have e6 := Exec.snoc e5 (.recv (r := ⟨0, true⟩) rfl rfl)
  exact ⟨_, _, e6, by decide⟩

/-- Two successful calls. -/
example : ∃ s, Exec (fun _ => false) [(0, ⟨0, false⟩), (1, ⟨1, false⟩)] s := by
  have e0 : Exec (fun _ => false) [] _ := .snoc .nil (.send rfl)
  have e1 := Exec.snoc e0 (.handle (k := 0) (l := []) rfl rfl)
  have e2 := Exec.snoc e1 (.offer (r := ⟨0, false⟩) (l := []) rfl rfl)
  have e3 := Exec.snoc e2 (.recv (r := ⟨0, false⟩) rfl rfl)
  have e4 := Exec.snoc e3 (.send rfl)
  have e5 := Exec.snoc e4 (.handle (k := 1) (l := []) rfl rfl)
  have e6 := Exec.snoc e5 (.offer (r := ⟨1, false⟩) (l := []) rfl rfl)
  have e7 := Exec.snoc e6 (.recv (r := ⟨1, false⟩) rfl rfl)
  exact ⟨_, e7⟩

end Verif.Ws.Test

import Verif.Base
/-!
# When calls of the websocket test client end (http/ws/test.go)

One goroutine opens a channel with `TestClient.Open` and calls its methods; the server has a reader and a loop (conn.go L26-70). What the server sends is delivered in the goroutine of the
loop, by calling the client's function (test.go L43-57, L95-115). Calls are numbered; what a method does, and what the callback does, is a function of that number. No context is cancelled.
-/
set_option autoImplicit false
namespace Verif.Ws.TestLife

/-- What the server does with a call: after some replies the method returns, fails or panics; or there is no such method. reflect.go L41-57, channel.go L28-60. -/
inductive Kind where
  | returns (replies : Nat)
  | fails (replies : Nat)
  | panics (replies : Nat)
  | unknown

/-- A frame from the server: a reply, or the end of a call, in error or not (reflect.go L44-56), or the error after it (channel.go L45-52). -/
inductive Fr where
  | data
  | ret (failed : Bool)
  | error
deriving DecidableEq

/-- What the callback of `Open` does with a frame: nothing, return an error, or call a method itself. test.go L92, L107. -/
inductive Cb where
  | ok
  | err
  | call (m : Nat)

/-- What calls do and what the callback does with their frames. -/
structure Prog where
  kind : Nat → Kind
  cb : Nat → Fr → Cb

/-- The frames of a call: channel.go L44-52, reflect.go L42-57. -/
def Kind.frames : Kind → List Fr
  | .returns n => List.replicate n .data ++ [.ret false]
  | .fails n => List.replicate n .data ++ [.ret true, .error]
  | .panics n => List.replicate n .data
  | .unknown => []

/-- Whether the loop ends with it: a panic and a missing method are errors of `onData`. channel.go L29-32, L56-58; conn.go L60-67. -/
def Kind.ends : Kind → Bool
  | .returns _ | .fails _ => false
  | .panics _ | .unknown => true

/-- What is put into `ech` (test.go L94): the call, and whether it is an error. -/
structure Result where
  call : Nat
  failed : Bool
deriving DecidableEq

/-- What the delivery of a frame consists of: putting a result into `ech` unless it is full (L102-105, L109-112), a call by the callback. -/
inductive Op where
  | offer (failed : Bool)
  | nested (m : Nat)

/-- The function `Open` registers: test.go L95-115. -/
def ops (f : Fr) (c : Cb) : List Op :=
  (match f with | .data => [] | .ret e => [.offer e] | .error => [.offer true]) ++ (match c with | .ok => [] | .err => [.offer true] | .call m => [.nested m])

/-- The loop: waiting for a node; serving a call, with what is left of the delivery of a frame and the frames left; in a call by the callback; gone. conn.go L51-70. -/
inductive Loop where
  | waiting
  | serving (k : Nat) (o : List Op) (fr : List Fr)
  | calling (k : Nat) (o : List Op) (fr : List Fr)
  | exited

/-- The state: how many calls were begun, the call the client waits for (test.go L125-130), the frames not read (L63, at most 10), the frame the reader hands over (conn.go L42-43), the loop,
`ech` (capacity 1), whether the connection was closed (L26). -/
structure St where
  next : Nat := 0
  client : Option Nat := none
  inbox : List Nat := []
  reader : Option Nat := none
  loop : Loop := .waiting
  ech : Option Result := none
  closed : Bool := false

/-- What can happen: the client calls, gets a result, closes; the reader reads and hands over; the loop goes on; a call by the callback gets a result. -/
inductive Act where
  | call
  | recv
  | close
  | read
  | hand
  | work
  | nested
deriving DecidableEq

/-- One step, with the result a call of the client returned. test.go L25-57, L84-137; conn.go L26-70. -/
def step (P : Prog) (s : St) : Act → Option (St × List (Nat × Result))
  | .call => match s.client with
    | some _ => none
    | none => if s.inbox.length < 10 then some ({ s with next := s.next + 1, client := some s.next, inbox := s.inbox ++ [s.next] }, []) else none
  | .recv => match s.client, s.ech with
    | some k, some r => some ({ s with client := none, ech := none }, [(k, r)])
    | _, _ => none
  | .close => match s.client with
    | some _ => none
    | none => some ({ s with closed := true }, [])
  | .read => match s.inbox, s.reader with
    | k :: l, none => some ({ s with inbox := l, reader := some k }, [])
    | _, _ => none
  | .hand => match s.reader, s.loop with
    | some k, .waiting => some ({ s with reader := none, loop := .serving k [] (P.kind k).frames }, [])
    | _, _ => none
  | .work => match s.loop with
    | .serving k (.offer e :: o) fr => some ({ s with loop := .serving k o fr, ech := match s.ech with | some r => some r | none => some ⟨k, e⟩ }, [])
    | .serving k (.nested m :: o) fr => if s.inbox.length < 10 then some ({ s with inbox := s.inbox ++ [m], loop := .calling k o fr }, []) else none
    | .serving k [] (f :: fr) => some ({ s with loop := .serving k (if s.closed then [] else ops f (P.cb k f)) fr }, [])
    | .serving k [] [] => some (if (P.kind k).ends then { s with loop := .exited, closed := true } else { s with loop := .waiting }, [])
    | _ => none
  | .nested => match s.loop, s.ech with
    | .calling k o fr, some _ => some ({ s with loop := .serving k o fr, ech := none }, [])
    | _, _ => none

/-- Executions from a state, with the results calls returned. -/
inductive Exec (P : Prog) (s0 : St) : List Act → List (Nat × Result) → St → Prop where
  | nil : Exec P s0 [] [] s0
  | snoc {as : List Act} {a : Act} {tr es : List (Nat × Result)} {s s' : St} : Exec P s0 as tr s → step P s a = some (s', es) → Exec P s0 (as ++ [a]) (tr ++ es) s'

/-- A list of steps, if all of them are possible. -/
def run (P : Prog) : St → List Act → Option (List (Nat × Result) × St)
  | s, [] => some ([], s)
  | s, a :: as => match step P s a with
    | none => none
    | some (s', es) => (run P s' as).map fun r => (es ++ r.1, r.2)

theorem exec_append {P : Prog} {s0 s s' : St} {as as' : List Act} {tr tr' : List (Nat × Result)} (h : Exec P s0 as tr s) (h' : Exec P s as' tr' s') : Exec P s0 (as ++ as') (tr ++ tr') s' := by
  induction h' with
  | nil => simpa using h
  | snoc _ hs ih => rw [← List.append_assoc, ← List.append_assoc]; exact .snoc ih hs

theorem exec_run {P : Prog} : ∀ {as : List Act} {s s' : St} {tr : List (Nat × Result)}, run P s as = some (tr, s') → Exec P s as tr s'
  | [], s, s', tr, h => by cases h; exact .nil
  | a :: as, s, s', tr, h => by
    simp only [run] at h
    split at h
    · cases h
    · rename_i s1 es hs
      obtain ⟨r, hr, e⟩ := Option.map_eq_some_iff.1 h
      cases e
      exact exec_append (exec_append .nil (.snoc .nil hs)) (exec_run hr)

/-! ### what is needed for a call to end -/

/-- Every method is there and does not panic, and the callback does not call. -/
def Polite (P : Prog) : Prop := (∀ k, (P.kind k).ends = false) ∧ ∀ k f m, P.cb k f ≠ .call m

/-- How much of a call is left, once it is served. -/
def left (P : Prog) (k : Nat) (o : List Op) (fr : List Fr) : Nat := 1 + o.length + (fr.map fun f => 1 + (ops f (P.cb k f)).length).sum

/-- How many steps the server can do with what it has. -/
def budget (P : Prog) (s : St) : Nat :=
  (s.inbox.map fun k => 2 + left P k [] (P.kind k).frames).sum + (match s.reader with | some k => 1 + left P k [] (P.kind k).frames | none => 0) +
    match s.loop with | .serving k o fr => left P k o fr | _ => 0

/-- Whether a result will be put into `ech`. -/
def Coming (P : Prog) (k : Nat) (o : List Op) (fr : List Fr) : Prop := (∃ e, Op.offer e ∈ o) ∨ ∃ f ∈ fr, ∃ e, Op.offer e ∈ ops f (P.cb k f)

/-- While nothing was closed: the loop is there and serves no call of the callback, and the result of a call that waits is there or comes. -/
structure Inv (P : Prog) (s : St) : Prop where
  open' : s.closed = false
  alive : s.loop ≠ .exited ∧ ∀ k o fr, s.loop ≠ .calling k o fr
  plain : ∀ k o fr, s.loop = .serving k o fr → ∀ m, Op.nested m ∉ o
  comes : ∀ k, s.client = some k → s.ech ≠ none ∨ k ∈ s.inbox ∨ s.reader = some k ∨ ∃ o fr, s.loop = .serving k o fr ∧ Coming P k o fr

theorem frames_coming (P : Prog) (k : Nat) (h : (P.kind k).ends = false) : Coming P k [] (P.kind k).frames := by
  right
  cases hk : P.kind k with
  | returns n => exact ⟨.ret false, by simp [Kind.frames], false, by simp [ops]⟩
  | fails n => exact ⟨.ret true, by simp [Kind.frames], true, by simp [ops]⟩
  | panics n => rw [hk] at h; cases h
  | unknown => rw [hk] at h; cases h

theorem ops_plain (P : Prog) (hP : Polite P) (k : Nat) (f : Fr) (m : Nat) : Op.nested m ∉ ops f (P.cb k f) := by
  have := hP.2 k f
  cases hc : P.cb k f with
  | ok => cases f <;> simp [ops]
  | err => cases f <;> simp [ops]
  | call m' => exact absurd hc (this m')

theorem inv_step (P : Prog) (hP : Polite P) (s s' : St) (a : Act) (es : List (Nat × Result)) (ha : a ≠ .close) (hi : Inv P s) (hs : step P s a = some (s', es)) : Inv P s' := by
  obtain ⟨h1, ⟨h2, h2'⟩, h3, h4⟩ := hi
  cases a with
  | close => exact absurd rfl ha
  | call =>
    simp only [step] at hs
    split at hs <;> try cases hs
    split at hs <;> simp only [Option.some.injEq, Prod.mk.injEq, reduceCtorEq] at hs
    obtain ⟨rfl, -⟩ := hs
    exact ⟨h1, ⟨h2, h2'⟩, h3, fun k hk => .inr (.inl (by cases hk; simp))⟩
  | recv =>
    simp only [step] at hs
    split at hs <;> simp only [Option.some.injEq, Prod.mk.injEq, reduceCtorEq] at hs
    obtain ⟨rfl, -⟩ := hs
    exact ⟨h1, ⟨h2, h2'⟩, h3, fun k hk => by cases hk⟩
  | read =>
    simp only [step] at hs
    split at hs <;> simp only [Option.some.injEq, Prod.mk.injEq, reduceCtorEq] at hs
    rename_i j l hin hr
    obtain ⟨rfl, -⟩ := hs
    refine ⟨h1, ⟨h2, h2'⟩, h3, fun k hk => ?_⟩
    rcases h4 k hk with h | h | h | h
    · exact .inl h
    · rw [hin] at h
      rcases List.mem_cons.1 h with rfl | h
      · exact .inr (.inr (.inl rfl))
      · exact .inr (.inl h)
    · rw [hr] at h; cases h
    · exact .inr (.inr (.inr h))
  | hand =>
    simp only [step] at hs
    split at hs <;> simp only [Option.some.injEq, Prod.mk.injEq, reduceCtorEq] at hs
    rename_i j hr hl
    obtain ⟨rfl, -⟩ := hs
    refine ⟨h1, ⟨by simp, by simp⟩, fun k o fr e m => ?_, fun k hk => ?_⟩
    · cases e; simp
    · rcases h4 k hk with h | h | h | ⟨o, fr, h, _⟩
      · exact .inl h
      · exact .inr (.inl h)
      · rw [hr] at h
        cases h
        exact .inr (.inr (.inr ⟨_, _, rfl, frames_coming P j (hP.1 j)⟩))
      · rw [hl] at h; cases h
  | work =>
    simp only [step] at hs
    split at hs
    · rename_i j e o fr hl
      simp only [Option.some.injEq, Prod.mk.injEq] at hs
      obtain ⟨rfl, -⟩ := hs
      refine ⟨h1, ⟨by simp, by simp⟩, fun k o' fr' e' m => ?_, fun k hk => .inl ?_⟩
      · cases e'
        exact fun hm => h3 _ _ _ hl m (List.mem_cons_of_mem _ hm)
      · simp only; split <;> simp
    · rename_i j m o fr hl
      exact absurd (List.mem_cons_self ..) (h3 _ _ _ hl m)
    · rename_i j f fr hl
      simp only [Option.some.injEq, Prod.mk.injEq] at hs
      obtain ⟨rfl, -⟩ := hs
      simp only [h1, Bool.false_eq_true, if_false]
      refine ⟨rfl, ⟨by simp, by simp⟩, fun k o' fr' e' m => ?_, fun k hk => ?_⟩
      · cases e'
        exact ops_plain P hP _ f m
      · rcases h4 k hk with h | h | h | ⟨o, fr', h, hc⟩
        · exact .inl h
        · exact .inr (.inl h)
        · exact .inr (.inr (.inl h))
        · rw [hl] at h
          cases h
          refine .inr (.inr (.inr ⟨_, _, rfl, ?_⟩))
          rcases hc with ⟨e, he⟩ | ⟨g, hg, e, he⟩
          · cases he
          · rcases List.mem_cons.1 hg with rfl | hg
            · exact .inl ⟨e, he⟩
            · exact .inr ⟨g, hg, e, he⟩
    · rename_i j hl
      simp only [hP.1 j, Bool.false_eq_true, if_false, Option.some.injEq, Prod.mk.injEq] at hs
      obtain ⟨rfl, -⟩ := hs
      refine ⟨h1, ⟨by simp, by simp⟩, fun k o' fr' e' m => by (cases e'), fun k hk => ?_⟩
      rcases h4 k hk with h | h | h | ⟨o, fr', h, hc⟩
      · exact .inl h
      · exact .inr (.inl h)
      · exact .inr (.inr (.inl h))
      · rw [hl] at h
        cases h
        rcases hc with ⟨e, he⟩ | ⟨g, hg, _⟩
        · cases he
        · cases hg
    · cases hs
  | nested =>
    simp only [step] at hs
    split at hs <;> simp only [Option.some.injEq, Prod.mk.injEq, reduceCtorEq] at hs
    rename_i j o fr r hl he
    exact absurd hl (h2' _ _ _)

theorem inv_exec (P : Prog) (hP : Polite P) (s0 : St) (as : List Act) (tr : List (Nat × Result)) (s : St) (h0 : Inv P s0) (he : Exec P s0 as tr s) (ha : Act.close ∉ as) : Inv P s := by
  induction he with
  | nil => exact h0
  | snoc _ hs ih =>
    simp only [List.mem_append, List.mem_singleton, not_or] at ha
    exact inv_step P hP _ _ _ _ (fun e => ha.2 e.symm) (ih ha.1) hs

theorem inv_start (P : Prog) : Inv P { } := ⟨rfl, ⟨by simp, by simp⟩, fun _ _ _ h => by (cases h), fun _ h => by (cases h)⟩

theorem budget_step (P : Prog) (s s' : St) (a : Act) (es : List (Nat × Result)) (hi : Inv P s) (k : Nat) (hw : s.client = some k) (ha : a ≠ .recv) (hs : step P s a = some (s', es)) :
    budget P s' < budget P s ∧ s'.client = some k ∧ es = [] := by
  cases a with
  | recv => exact absurd rfl ha
  | call => simp [step, hw] at hs
  | close => simp [step, hw] at hs
  | read =>
    simp only [step] at hs
    split at hs <;> simp only [Option.some.injEq, Prod.mk.injEq, reduceCtorEq] at hs
    rename_i j l hin hr
    obtain ⟨rfl, rfl⟩ := hs
    refine ⟨?_, hw, rfl⟩
    simp only [budget, hin, hr, List.map_cons, List.sum_cons]
    omega
  | hand =>
    simp only [step] at hs
    split at hs <;> simp only [Option.some.injEq, Prod.mk.injEq, reduceCtorEq] at hs
    rename_i j hr hl
    obtain ⟨rfl, rfl⟩ := hs
    refine ⟨?_, hw, rfl⟩
    simp only [budget, hr, hl]
    omega
  | work =>
    simp only [step] at hs
    split at hs
    · rename_i j e o fr hl
      simp only [Option.some.injEq, Prod.mk.injEq] at hs
      obtain ⟨rfl, rfl⟩ := hs
      refine ⟨?_, hw, rfl⟩
      simp only [budget, hl, left, List.length_cons]
      omega
    · rename_i j m o fr hl
      exact absurd (List.mem_cons_self ..) (hi.plain _ _ _ hl m)
    · rename_i j f fr hl
      simp only [Option.some.injEq, Prod.mk.injEq] at hs
      obtain ⟨rfl, rfl⟩ := hs
      refine ⟨?_, hw, rfl⟩
      simp only [budget, hl, left, hi.open', Bool.false_eq_true, if_false, List.map_cons, List.sum_cons, List.length_nil]
      omega
    · rename_i j hl
      simp only [Option.some.injEq, Prod.mk.injEq] at hs
      obtain ⟨rfl, rfl⟩ := hs
      by_cases he : (P.kind j).ends
      · simp only [he, if_true]
        refine ⟨?_, hw, by simp⟩
        simp only [budget, hl, left, List.map_nil, List.sum_nil, List.length_nil]
        omega
      · simp only [he, if_false, Bool.false_eq_true]
        refine ⟨?_, hw, by simp⟩
        simp only [budget, hl, left, List.map_nil, List.sum_nil, List.length_nil]
        omega
    · cases hs
  | nested =>
    simp only [step] at hs
    split at hs <;> simp only [Option.some.injEq, Prod.mk.injEq, reduceCtorEq] at hs
    rename_i j o fr r hl he
    exact absurd hl (hi.alive.2 _ _ _)

theorem progress (P : Prog) (s : St) (hi : Inv P s) (k : Nat) (hw : s.client = some k) : ∃ a, step P s a ≠ none := by
  by_cases he : s.ech = none
  · cases hl : s.loop with
    | exited => exact absurd hl hi.alive.1
    | calling j o fr => exact absurd hl (hi.alive.2 _ _ _)
    | serving j o fr =>
      refine ⟨.work, ?_⟩
      match o, fr, hl with
      | .offer e :: o, fr, hl => simp [step, hl]
      | .nested m :: o, fr, hl => exact absurd (List.mem_cons_self ..) (hi.plain _ _ _ hl m)
      | [], f :: fr, hl => simp [step, hl]
      | [], [], hl => simp [step, hl]
    | waiting =>
      cases hr : s.reader with
      | some j => exact ⟨.hand, by simp [step, hl, hr]⟩
      | none =>
        rcases hi.comes k hw with h | h | h | ⟨o, fr, h, _⟩
        · exact absurd he h
        · refine ⟨.read, ?_⟩
          cases hin : s.inbox with
          | nil => rw [hin] at h; cases h
          | cons j l => simp [step, hin, hr]
        · rw [hr] at h; cases h
        · rw [hl] at h; cases h
  · obtain ⟨r, hr⟩ := Option.ne_none_iff_exists'.1 he
    exact ⟨.recv, by simp [step, hw, hr]⟩

/-! ### C150 -/

/-- C150 (partial): as long as every method that is called is there and does not panic, the callback does not call and nobody closes: a call that was sent can always go on, and gets a result
before the server has done all it can. Missing: the result may be another call's (C93); and see the violations. -/
theorem C150_ends_partial (P : Prog) (hP : Polite P) (as : List Act) (tr : List (Nat × Result)) (s : St) (h : Exec P { } as tr s) (hc : Act.close ∉ as) (k : Nat) (hw : s.client = some k)
    (as' : List Act) (tr' : List (Nat × Result)) (s' : St) (h' : Exec P s as' tr' s') (hr : Act.recv ∉ as') :
    s'.client = some k ∧ tr' = [] ∧ as'.length + budget P s' ≤ budget P s ∧ ∃ a, step P s' a ≠ none := by
  have hi := inv_exec P hP _ _ _ _ (inv_start P) h hc
  have key : Inv P s' ∧ s'.client = some k ∧ tr' = [] ∧ as'.length + budget P s' ≤ budget P s := by
    induction h' with
    | nil => exact ⟨hi, hw, rfl, by simp⟩
    | @snoc as a tr es s1 s2 _ hs ih =>
      simp only [List.mem_append, List.mem_singleton, not_or] at hr
      obtain ⟨i1, i2, i3, i4⟩ := ih hr.1
      obtain ⟨b1, b2, b3⟩ := budget_step P s1 s2 a es i1 k i2 (fun e => hr.2 e.symm) hs
      refine ⟨inv_step P hP s1 s2 a es ?_ i1 hs, b2, by rw [i3, b3]; rfl, by simp only [List.length_append, List.length_singleton]; omega⟩
      rintro rfl
      simp [step, i2] at hs
  exact ⟨key.2.1, key.2.2.1, key.2.2.2, progress P s' key.1 k key.2.1⟩

/-- A method that replies twice and fails, with a callback that refuses the replies: the call gets the callback's error, the rest is dropped or stays for the next call. -/
example : let P : Prog := ⟨fun k => if k = 0 then .fails 2 else .returns 0, fun _ f => if f = .data then .err else .ok⟩
    (run P { } [.call, .read, .hand, .work, .work, .recv]).map (fun r => (r.1, budget P r.2)) = some ([(0, ⟨0, true⟩)], 7) ∧
    (run P { } [.call, .read, .hand, .work, .work, .recv, .call, .work, .work, .recv]).map (·.1) = some [(0, ⟨0, true⟩), (1, ⟨0, true⟩)] ∧
    (run P { } [.call]).map (fun r => budget P r.2) = some 11 := by decide

/-- What a result says of the call it is of: no error only of a method that returned none; an error of a method that returned one, or of a
callback that refused one of the frames. -/
def Truthful (P : Prog) (r : Result) : Prop :=
  (r.failed = false → ∃ n, P.kind r.call = .returns n) ∧ (r.failed = true → (∃ n, P.kind r.call = .fails n) ∨ ∃ f ∈ (P.kind r.call).frames, P.cb r.call f = .err)

/-- All results on their way are true. -/
def Honest (P : Prog) (s : St) : Prop :=
  (∀ r, s.ech = some r → Truthful P r) ∧
  ∀ k o fr, (s.loop = .serving k o fr ∨ s.loop = .calling k o fr) → (∀ e, Op.offer e ∈ o → Truthful P ⟨k, e⟩) ∧ ∀ f ∈ fr, f ∈ (P.kind k).frames

theorem true_ops (P : Prog) (k : Nat) (f : Fr) (hf : f ∈ (P.kind k).frames) (e : Bool) (h : Op.offer e ∈ ops f (P.cb k f)) : Truthful P ⟨k, e⟩ := by
  rcases List.mem_append.1 h with h | h
  · cases f with
    | data => cases h
    | ret b =>
      obtain rfl : e = b := by simpa using h
      cases hk : P.kind k with
      | returns n =>
        simp [hk, Kind.frames] at hf; subst hf
        exact ⟨fun _ => ⟨n, hk⟩, (nomatch ·)⟩
      | fails n =>
        simp [hk, Kind.frames] at hf; subst hf
        exact ⟨(nomatch ·), fun _ => .inl ⟨n, hk⟩⟩
      | panics n => simp [hk, Kind.frames] at hf
      | unknown => simp [hk, Kind.frames] at hf
    | error =>
      obtain rfl : e = true := by simpa using h
      cases hk : P.kind k with
      | fails n => exact ⟨(nomatch ·), fun _ => .inl ⟨n, hk⟩⟩
      | returns n => simp [hk, Kind.frames] at hf
      | panics n => simp [hk, Kind.frames] at hf
      | unknown => simp [hk, Kind.frames] at hf
  · cases hc : P.cb k f with
    | ok => rw [hc] at h; cases h
    | call m => rw [hc] at h; simp at h
    | err =>
      rw [hc] at h
      obtain rfl : e = true := by simpa using h
      exact ⟨(nomatch ·), fun _ => .inr ⟨f, hf, hc⟩⟩

theorem honest_step (P : Prog) (s s' : St) (a : Act) (es : List (Nat × Result)) (h : Honest P s) (hs : step P s a = some (s', es)) :
    Honest P s' ∧ ∀ x ∈ es, Truthful P x.2 := by
  obtain ⟨h1, h2⟩ := h
  cases a with
  | call =>
    simp only [step] at hs
    split at hs
    · cases hs
    · split at hs <;> cases hs
      exact ⟨⟨h1, h2⟩, by simp⟩
  | recv =>
    simp only [step] at hs
    split at hs <;> cases hs
    rename_i k r _ he
    exact ⟨⟨fun _ hr => (by cases hr), h2⟩, fun x hx => by rw [List.mem_singleton.1 hx]; exact h1 r he⟩
  | close =>
    simp only [step] at hs
    split at hs <;> cases hs
    exact ⟨⟨h1, h2⟩, by simp⟩
  | read =>
    simp only [step] at hs
    split at hs <;> cases hs
    exact ⟨⟨h1, h2⟩, by simp⟩
  | hand =>
    simp only [step] at hs
    split at hs <;> cases hs
    refine ⟨⟨h1, fun k o fr hl => ?_⟩, by simp⟩
    rcases hl with hl | hl <;> cases hl
    exact ⟨by simp, fun f hf => hf⟩
  | nested =>
    simp only [step] at hs
    split at hs <;> cases hs
    rename_i k o fr r hl _
    refine ⟨⟨fun _ hr => (by cases hr), fun k' o' fr' hl' => ?_⟩, by simp⟩
    rcases hl' with hl' | hl' <;> cases hl'
    exact h2 _ _ _ (.inr hl)
  | work =>
    simp only [step] at hs
    split at hs
    · rename_i k e o fr hl
      cases hs
      have hh := h2 _ _ _ (.inl hl)
      refine ⟨⟨fun r hr => ?_, fun k' o' fr' hl' => ?_⟩, by simp⟩
      · cases he : s.ech with
        | some r' => simp only [he, Option.some.injEq] at hr; subst hr; exact h1 _ he
        | none => simp only [he, Option.some.injEq] at hr; subst hr; exact hh.1 e (by simp)
      · rcases hl' with hl' | hl' <;> cases hl'
        exact ⟨fun e he => hh.1 e (by simp [he]), hh.2⟩
    · rename_i k m o fr hl
      split at hs <;> cases hs
      have hh := h2 _ _ _ (.inl hl)
      refine ⟨⟨h1, fun k' o' fr' hl' => ?_⟩, by simp⟩
      rcases hl' with hl' | hl' <;> cases hl'
      exact ⟨fun e he => hh.1 e (by simp [he]), hh.2⟩
    · rename_i k f fr hl
      cases hs
      have hh := h2 _ _ _ (.inl hl)
      refine ⟨⟨h1, fun k' o' fr' hl' => ?_⟩, by simp⟩
      rcases hl' with hl' | hl' <;> cases hl'
      refine ⟨fun e he => ?_, fun f' hf' => hh.2 f' (by simp [hf'])⟩
      split at he
      · cases he
      · exact true_ops P _ f (hh.2 f (by simp)) e he
    · rename_i k hl
      cases hs
      refine ⟨?_, by simp⟩
      split
      · exact ⟨h1, fun k' o' fr' hl' => by rcases hl' with hl' | hl' <;> cases hl'⟩
      · exact ⟨h1, fun k' o' fr' hl' => by rcases hl' with hl' | hl' <;> cases hl'⟩
    · cases hs

/-- C150: whatever happens, a result that is returned is true of the call it was made for (which need not be the call that returns it). -/
theorem C150_results (P : Prog) (as : List Act) (tr : List (Nat × Result)) (s : St) (h : Exec P { } as tr s) (n k : Nat) (failed : Bool) (hr : (n, ⟨k, failed⟩) ∈ tr) :
    (failed = false → ∃ n, P.kind k = .returns n) ∧ (failed = true → (∃ n, P.kind k = .fails n) ∨ ∃ f ∈ (P.kind k).frames, P.cb k f = .err) := by
  have key : Honest P s ∧ ∀ x ∈ tr, Truthful P x.2 := by
    clear hr
    induction h with
    | nil => exact ⟨⟨fun _ hr => (by cases hr), fun k o fr hl => by rcases hl with hl | hl <;> cases hl⟩, by simp⟩
    | snoc _ hs ih =>
      have := honest_step P _ _ _ _ ih.1 hs
      refine ⟨this.1, fun x hx => ?_⟩
      rcases List.mem_append.1 hx with hx | hx
      · exact ih.2 x hx
      · exact this.2 x hx
  exact key.2 _ hr

/-- Nothing will come for the client any more. -/
def Deaf (P : Prog) (k : Nat) (s : St) : Prop :=
  s.ech = none ∧ s.client = some k ∧ s.next = k + 1 ∧
    ((s.inbox = [k] ∧ s.reader = none ∧ s.loop = .waiting) ∨ (s.inbox = [] ∧ s.reader = some k ∧ s.loop = .waiting) ∨
      (s.inbox = [] ∧ s.reader = none ∧ ((∃ fr, s.loop = .serving k [] fr ∧ ∀ f ∈ fr, f = Fr.data) ∨ s.loop = .exited)))

theorem deaf_step (P : Prog) (k : Nat) (s s' : St) (a : Act) (es : List (Nat × Result)) (hk : (P.kind k).ends = true) (hcb : P.cb k .data = .ok) (h : Deaf P k s)
    (hs : step P s a = some (s', es)) : es = [] ∧ Deaf P k s' := by
  obtain ⟨h1, h2, h3, h4⟩ := h
  cases a with
  | call => simp [step, h2] at hs
  | recv => simp [step, h1] at hs
  | close => simp [step, h2] at hs
  | nested => simp [step, h1] at hs
  | read =>
    rcases h4 with ⟨a1, a2, a3⟩ | ⟨a1, a2, a3⟩ | ⟨a1, a2, a3⟩
    · simp only [step, a1, a2, Option.some.injEq, Prod.mk.injEq] at hs
      obtain ⟨rfl, rfl⟩ := hs
      exact ⟨rfl, h1, h2, h3, .inr (.inl ⟨rfl, rfl, a3⟩)⟩
    · simp [step, a1] at hs
    · simp [step, a1] at hs
  | hand =>
    rcases h4 with ⟨a1, a2, a3⟩ | ⟨a1, a2, a3⟩ | ⟨a1, a2, a3⟩
    · simp [step, a2] at hs
    · simp only [step, a2, a3, Option.some.injEq, Prod.mk.injEq] at hs
      obtain ⟨rfl, rfl⟩ := hs
      refine ⟨rfl, h1, h2, h3, .inr (.inr ⟨a1, rfl, .inl ⟨_, rfl, ?_⟩⟩)⟩
      cases hkind : P.kind k with
      | returns n => rw [hkind] at hk; cases hk
      | fails n => rw [hkind] at hk; cases hk
      | panics n => intro f hf; exact List.eq_of_mem_replicate hf
      | unknown => intro f hf; cases hf
    · simp [step, a2] at hs
  | work =>
    rcases h4 with ⟨a1, a2, a3⟩ | ⟨a1, a2, a3⟩ | ⟨a1, a2, ⟨fr, a3, hd⟩ | a3⟩
    · simp [step, a3] at hs
    · simp [step, a3] at hs
    · cases fr with
      | nil =>
        simp only [step, a3, hk, if_true, Option.some.injEq, Prod.mk.injEq] at hs
        obtain ⟨rfl, rfl⟩ := hs
        exact ⟨rfl, h1, h2, h3, .inr (.inr ⟨a1, a2, .inr rfl⟩)⟩
      | cons f fr =>
        obtain rfl : f = .data := hd f (by simp)
        have : (if s.closed then [] else ops .data (P.cb k .data)) = [] := by rw [hcb]; split <;> rfl
        simp only [step, a3, this, Option.some.injEq, Prod.mk.injEq] at hs
        obtain ⟨rfl, rfl⟩ := hs
        exact ⟨rfl, h1, h2, h3, .inr (.inr ⟨a1, a2, .inl ⟨fr, rfl, fun f hf => hd f (by simp [hf])⟩⟩)⟩
    · simp [step, a3] at hs

/-- C150 (violated): calling a method that does not exist, or that panics, never returns, whatever happens: the server ends its loop, and tells it to a channel the client does not know.
(The first call; the callback takes its replies.) -/
theorem C150_unknown_violated (P : Prog) (hk : (P.kind 0).ends = true) (hcb : P.cb 0 .data = .ok) (as : List Act) (tr : List (Nat × Result)) (s : St) (hc : Act.close ∉ as)
    (h : Exec P { } as tr s) : tr = [] ∧ (0 < s.next → s.client = some 0) := by
  have key : tr = [] ∧ ((s = { }) ∨ Deaf P 0 s) := by
    induction h with
    | nil => exact ⟨rfl, .inl rfl⟩
    | @snoc as a tr es s1 s2 _ hs ih =>
      simp only [List.mem_append, List.mem_singleton, not_or] at hc
      obtain ⟨rfl, rfl | hd⟩ := ih hc.1
      · cases a with
        | close => exact absurd rfl hc.2
        | call =>
          simp only [step, List.length_nil, Nat.zero_lt_succ, if_true, Option.some.injEq, Prod.mk.injEq] at hs
          obtain ⟨rfl, rfl⟩ := hs
          exact ⟨rfl, .inr ⟨rfl, rfl, rfl, .inl ⟨rfl, rfl, rfl⟩⟩⟩
        | _ => simp [step] at hs
      · obtain ⟨rfl, h2⟩ := deaf_step P 0 s1 s2 a es hk hcb hd hs
        exact ⟨rfl, .inr h2⟩
  refine ⟨key.1, fun hn => ?_⟩
  rcases key.2 with rfl | h
  · exact absurd hn (by decide)
  · exact h.2.1

/-- The server is done, and the client waits. -/
example : (run ⟨fun _ => .panics 1, fun _ _ => .ok⟩ { } [.call, .read, .hand, .work, .work]).map (fun r => (r.1, r.2.client, r.2.closed)) = some ([], some 0, true) := by decide

/-- Closed, and nothing on its way. -/
def Shut (s : St) : Prop := s.closed = true ∧ s.ech = none ∧ (∀ k o fr, s.loop = .serving k o fr → o = []) ∧ ∀ k o fr, s.loop ≠ .calling k o fr

theorem shut_step (P : Prog) (s s' : St) (a : Act) (es : List (Nat × Result)) (h : Shut s) (hs : step P s a = some (s', es)) : es = [] ∧ Shut s' := by
  obtain ⟨h1, h2, h3, h4⟩ := h
  cases a with
  | call =>
    simp only [step] at hs
    split at hs <;> try cases hs
    split at hs <;> simp only [Option.some.injEq, Prod.mk.injEq, reduceCtorEq] at hs
    obtain ⟨rfl, rfl⟩ := hs
    exact ⟨rfl, h1, h2, h3, h4⟩
  | recv => simp only [step, h2] at hs; split at hs <;> simp_all
  | close =>
    simp only [step] at hs
    split at hs <;> simp only [Option.some.injEq, Prod.mk.injEq, reduceCtorEq] at hs
    obtain ⟨rfl, rfl⟩ := hs
    exact ⟨rfl, rfl, h2, h3, h4⟩
  | read =>
    simp only [step] at hs
    split at hs <;> simp only [Option.some.injEq, Prod.mk.injEq, reduceCtorEq] at hs
    obtain ⟨rfl, rfl⟩ := hs
    exact ⟨rfl, h1, h2, h3, h4⟩
  | hand =>
    simp only [step] at hs
    split at hs <;> simp only [Option.some.injEq, Prod.mk.injEq, reduceCtorEq] at hs
    obtain ⟨rfl, rfl⟩ := hs
    refine ⟨rfl, h1, h2, fun k o fr e => ?_, by simp⟩
    cases e; rfl
  | nested => simp only [step, h2] at hs; split at hs <;> simp_all
  | work =>
    simp only [step] at hs
    split at hs
    · rename_i j e o fr hl; cases h3 _ _ _ hl
    · rename_i j m o fr hl; cases h3 _ _ _ hl
    · simp only [h1, if_true, Option.some.injEq, Prod.mk.injEq] at hs
      obtain ⟨rfl, rfl⟩ := hs
      refine ⟨rfl, rfl, h2, fun k o fr e => ?_, by simp⟩
      cases e; rfl
    · simp only [Option.some.injEq, Prod.mk.injEq] at hs
      obtain ⟨rfl, rfl⟩ := hs
      split
      · exact ⟨rfl, rfl, h2, by simp, by simp⟩
      · exact ⟨rfl, h1, h2, by simp, by simp⟩
    · cases hs

/-- C150 (violated): after `Close` no call ever returns, whatever the methods do and whatever happens. -/
theorem C150_closed_violated (P : Prog) (s : St) (h : Shut s) (as : List Act) (tr : List (Nat × Result)) (s' : St) (he : Exec P s as tr s') : tr = [] := by
  have key : tr = [] ∧ Shut s' := by
    induction he with
    | nil => exact ⟨rfl, h⟩
    | snoc _ hs ih =>
      obtain ⟨rfl, h1⟩ := ih
      obtain ⟨rfl, h2⟩ := shut_step P _ _ _ _ h1 hs
      exact ⟨rfl, h2⟩
  exact key.1

/-- A call after `Close` is served, and its return is thrown away. -/
example : (run ⟨fun _ => .returns 0, fun _ _ => .ok⟩ { } [.close, .call, .read, .hand, .work, .work]).map (fun r => (r.1, r.2.client, r.2.ech)) = some ([], some 0, none) := by decide

/-- C150 (violated): and `Close` does not end the server: after a call and `Close` the loop waits, and nothing can happen but further calls and `Close`. -/
theorem C150_leak_violated : ∃ as tr s, Exec ⟨fun _ => .returns 0, fun _ _ => .ok⟩ { } as tr s ∧ tr = [(0, ⟨0, false⟩)] ∧ Shut s ∧ s.loop = .waiting ∧ s.client = none ∧
    ∀ a, a ≠ .call → a ≠ .close → step ⟨fun _ => .returns 0, fun _ _ => .ok⟩ s a = none := by
  refine ⟨[.call, .read, .hand, .work, .work, .work, .recv, .close], [(0, ⟨0, false⟩)], { next := 1, closed := true }, ?_, rfl, ?_, rfl, rfl, ?_⟩
  · exact exec_run rfl
  · exact ⟨rfl, rfl, fun _ _ _ e => by (cases e), fun _ _ _ e => by (cases e)⟩
  · intro a h1 h2
    cases a <;> first | exact absurd rfl h1 | exact absurd rfl h2 | rfl

/-- C150 (violated): a callback that calls a method when it gets a reply blocks itself, the server and the call for ever. -/
theorem C150_nested_violated : ∃ as tr s, Exec ⟨fun k => if k = 0 then .returns 1 else .returns 0, fun _ f => if f = .data then .call 1 else .ok⟩ { } as tr s ∧ s.client = some 0 ∧ tr = [] ∧
    (∃ k o fr, s.loop = .calling k o fr) ∧ ∀ a, step ⟨fun k => if k = 0 then .returns 1 else .returns 0, fun _ f => if f = .data then .call 1 else .ok⟩ s a = none := by
  refine ⟨[.call, .read, .hand, .work, .work, .read], [], { next := 1, client := some 0, reader := some 1, loop := .calling 0 [] [.ret false] }, ?_, rfl, rfl, ⟨_, _, _, rfl⟩, ?_⟩
  · exact exec_run rfl
  · intro a
    cases a <;> rfl

end Verif.Ws.TestLife

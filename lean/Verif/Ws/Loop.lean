import Verif.Base
/-!
# The loop of a websocket connection (http/ws/conn.go L26-70)

Two goroutines: one reads from the connection and passes what it read through a channel without buffer, the other handles it. The handler `onData` is a function of the
application's state; a handler that runs while the connection is read is two events, its beginning and its end. The connection delivers nodes, and fails at any time (also
because it was closed, or the context cancelled). Sending the disconnect frame always ends; whether it arrives is not modelled, nor the panic if the error can not be marshalled.
-/
set_option autoImplicit false
namespace Verif.Ws

/-- How `onData` ends. conn.go L60-67. -/
inductive HRes where
  | ok
  | err
  | panic
deriving DecidableEq

/-- The reading goroutine (L27-49): in `Read`, passing a node on, or ended (the channel is closed). -/
inductive Reader (N : Type) where
  | reading
  | sending (n : N)
  | done

/-- The loop (L50-68): waiting, in `onData`, on its way out (the deferred `Close` is to come), returned. -/
inductive Main (N : Type) where
  | waiting
  | handling (n : N)
  | exiting
  | exited

/-- What the loop does, as seen from outside. conn.go L26-70. -/
inductive Ev (N : Type) where
  | begin (n : N)
  | finish (n : N) (r : HRes)
  /-- the disconnect frame -/
  | disconnect
  /-- the loop ends because the context is cancelled, or nothing comes anymore -/
  | quit
  | close
deriving DecidableEq

/-- The state; `input` is what the connection will deliver, `app` the application's. conn.go L26-70. -/
structure St (N σ : Type) where
  input : List N
  reader : Reader N := .reading
  main : Main N := .waiting
  cancelled : Bool := false
  app : σ

/-- The steps, with the events they show. conn.go L26-70. -/
inductive Step {N σ : Type} (h : σ → N → σ × HRes) : St N σ → List (Ev N) → St N σ → Prop where
  /-- `Read` gives a node (L30, L40) -/
  | read {s : St N σ} {n : N} {l : List N} : s.reader = .reading → s.input = n :: l → Step h s [] { s with reader := .sending n, input := l }
  /-- `Read` fails (L32-39) -/
  | fail {s : St N σ} : s.reader = .reading → Step h s [] { s with reader := .done }
  /-- the reader sees the cancellation (L43-45) -/
  | readerQuit {s : St N σ} {n : N} : s.reader = .sending n → s.cancelled = true → Step h s [] { s with reader := .done }
  /-- the context is cancelled -/
  | cancel {s : St N σ} : Step h s [] { s with cancelled := true }
  /-- the node is passed (L42, L55), and `onData` called (L59) -/
  | handoff {s : St N σ} {n : N} : s.reader = .sending n → s.main = .waiting → Step h s [.begin n] { s with reader := .reading, main := .handling n }
  /-- `onData` returns nil -/
  | finish {s : St N σ} {n : N} {a : σ} : s.main = .handling n → h s.app n = (a, .ok) → Step h s [.finish n .ok] { s with main := .waiting, app := a }
  /-- `onData` returns an error: the disconnect frame, and out (L60-66) -/
  | finishErr {s : St N σ} {n : N} {a : σ} : s.main = .handling n → h s.app n = (a, .err) → Step h s [.finish n .err, .disconnect] { s with main := .exiting, app := a }
  /-- `onData` panics -/
  | finishPanic {s : St N σ} {n : N} {a : σ} : s.main = .handling n → h s.app n = (a, .panic) → Step h s [.finish n .panic] { s with main := .exiting, app := a }
  /-- the loop sees the cancellation (L53-54) -/
  | mainCancelled {s : St N σ} : s.main = .waiting → s.cancelled = true → Step h s [.quit] { s with main := .exiting }
  /-- or that the channel is closed (L56-58) -/
  | mainClosed {s : St N σ} : s.main = .waiting → s.reader = .done → Step h s [.quit] { s with main := .exiting }
  /-- the deferred `Close` (L50) -/
  | close {s : St N σ} : s.main = .exiting → Step h s [.close] { s with main := .exited }

/-- Executions, with the events in order. conn.go L26-70. -/
inductive Exec {N σ : Type} (h : σ → N → σ × HRes) (s0 : St N σ) : List (Ev N) → St N σ → Prop where
  | nil : Exec h s0 [] s0
  | snoc {tr es : List (Ev N)} {s s' : St N σ} : Exec h s0 tr s → Step h s es s' → Exec h s0 (tr ++ es) s'

/-! ### specification: the loop as a sequential program -/

/-- Handling nodes one after the other, as long as it goes well: the events, the state, and how the last one ended (`ok` if there is none). conn.go L52-69. -/
def handleAll {N σ : Type} (h : σ → N → σ × HRes) : σ → List N → List (Ev N) × σ × HRes
  | a, [] => ([], a, .ok)
  | a, n :: l =>
    match h a n with
    | (a, .ok) => let r := handleAll h a l; (.begin n :: .finish n .ok :: r.1, r.2)
    | (a, .err) => ([.begin n, .finish n .err, .disconnect], a, .err)
    | (a, .panic) => ([.begin n, .finish n .panic], a, .panic)

/-- All nodes are handled, each but maybe the last with success. conn.go L52-69. -/
def Used {N σ : Type} (h : σ → N → σ × HRes) : σ → List N → Prop
  | _, [] => True
  | a, n :: l => match h a n with
    | (a, .ok) => Used h a l
    | _ => l = []

/-! ### lemmas -/

section
variable {N σ : Type} (h : σ → N → σ × HRes)

theorem handleAll_snoc : ∀ (a : σ) (l : List N) (n : N), (handleAll h a l).2.2 = .ok → Used h a l →
    handleAll h a (l ++ [n]) = ((handleAll h a l).1 ++ (handleAll h (handleAll h a l).2.1 [n]).1, (handleAll h (handleAll h a l).2.1 [n]).2) ∧ Used h a (l ++ [n])
  | a, [], n, _, _ => by
    refine ⟨by simp [handleAll], ?_⟩
    simp only [List.nil_append, Used]
    split <;> trivial
  | a, m :: l, n, hok, hu => by
    simp only [handleAll, List.cons_append, Used] at hok hu ⊢
    rcases hm : h a m with ⟨a', r⟩
    rw [hm] at hok hu
    cases r with
    | ok =>
      obtain ⟨h1, h2⟩ := handleAll_snoc a' l n hok hu
      exact ⟨by simp only [h1]; rfl, h2⟩
    | err => cases hok
    | panic => cases hok

/-- The invariant: which nodes were handled, which are on the way, and where the loop is. -/
theorem exec_inv (s0 : St N σ) (h0 : s0.reader = .reading ∧ s0.main = .waiting) (tr : List (Ev N)) (s : St N σ) (he : Exec h s0 tr s) :
    ∃ ns, Used h s0.app ns ∧
      (∃ onway, s0.input = ns ++ onway ∧ (s.reader = .reading → (match s.main with | .handling n => onway = n :: s.input | _ => onway = s.input)) ∧
        (∀ m, s.reader = .sending m → (match s.main with | .handling n => onway = n :: m :: s.input | _ => onway = m :: s.input)) ∧
        (s.reader = .done → (match s.main with | .handling n => ∃ l, onway = n :: l | _ => True))) ∧
      (match s.main with
        | .waiting => (handleAll h s0.app ns).2 = (s.app, .ok) ∧ tr = (handleAll h s0.app ns).1
        | .handling n => (handleAll h s0.app ns).2 = (s.app, .ok) ∧ tr = (handleAll h s0.app ns).1 ++ [.begin n]
        | .exiting => (handleAll h s0.app ns).2.1 = s.app ∧ ((handleAll h s0.app ns).2.2 = .ok ∧ tr = (handleAll h s0.app ns).1 ++ [.quit] ∨ (handleAll h s0.app ns).2.2 ≠ .ok ∧ tr = (handleAll h s0.app ns).1)
        | .exited => (handleAll h s0.app ns).2.1 = s.app ∧ ((handleAll h s0.app ns).2.2 = .ok ∧ tr = (handleAll h s0.app ns).1 ++ [.quit, .close] ∨
            (handleAll h s0.app ns).2.2 ≠ .ok ∧ tr = (handleAll h s0.app ns).1 ++ [.close])) := by
  induction he with
  | nil => exact ⟨[], trivial, ⟨_, rfl, by rw [h0.2]; exact fun _ => rfl, (fun m hm => by rw [h0.1] at hm; cases hm), (fun hm => by rw [h0.1] at hm; cases hm)⟩, by rw [h0.2]; exact ⟨rfl, rfl⟩⟩
  | @snoc tr es s s' _ hs ih =>
    obtain ⟨ns, hu, ⟨onway, hin, w1, w2, w3⟩, hm⟩ := ih
    cases hs with
    | @read n l hr hi =>
      rw [List.append_nil]
      refine ⟨ns, hu, ⟨onway, hin, (fun h => by cases h), (fun m h => ?_), (fun h => by cases h)⟩, hm⟩
      injection h with h; subst h
      have := w1 hr
      rw [hi] at this
      exact this
    | fail hr =>
      rw [List.append_nil]
      refine ⟨ns, hu, ⟨onway, hin, (fun h => by cases h), (fun m h => by cases h), fun _ => ?_⟩, hm⟩
      have := w1 hr
      cases hmain : s.main with
      | handling n => rw [hmain] at this; exact ⟨_, this⟩
      | waiting => trivial
      | exiting => trivial
      | exited => trivial
    | @readerQuit n hr hc =>
      rw [List.append_nil]
      refine ⟨ns, hu, ⟨onway, hin, (fun h => by cases h), (fun m h => by cases h), fun _ => ?_⟩, hm⟩
      have := w2 n hr
      cases hmain : s.main with
      | handling n => rw [hmain] at this; exact ⟨_, this⟩
      | waiting => trivial
      | exiting => trivial
      | exited => trivial
    | cancel => rw [List.append_nil]; exact ⟨ns, hu, ⟨onway, hin, w1, w2, w3⟩, hm⟩
    | @handoff n hr hw =>
      have := w2 n hr
      rw [hw] at this hm
      refine ⟨ns, hu, ⟨onway, hin, fun _ => this, (fun m h => by cases h), (fun h => by cases h)⟩, hm.1, by rw [hm.2]⟩
    | @finish n a hmain hh =>
      rw [hmain] at hm w1 w2 w3
      obtain ⟨h1, h2⟩ := hm
      have hok : (handleAll h s0.app ns).2.2 = .ok := by rw [h1]
      have happ : (handleAll h s0.app ns).2.1 = s.app := by rw [h1]
      obtain ⟨k1, k2⟩ := handleAll_snoc h s0.app ns n hok hu
      rw [happ] at k1
      simp only [handleAll, hh] at k1
      have hin' : ∃ rest, onway = n :: rest := by
        cases hr : s.reader with
        | reading => exact ⟨_, w1 hr⟩
        | sending m => exact ⟨_, w2 m hr⟩
        | done => exact w3 hr
      obtain ⟨rest, rfl⟩ := hin'
      refine ⟨ns ++ [n], k2, ⟨rest, by rw [hin]; simp, fun hr => ?_, fun m hr => ?_, fun _ => trivial⟩, ?_, ?_⟩
      · have := w1 hr; injection this
      · have := w2 m hr; injection this
      · rw [k1]
      · rw [k1, h2]; simp
    | @finishErr n a hmain hh =>
      rw [hmain] at hm w1 w2 w3
      obtain ⟨h1, h2⟩ := hm
      have hok : (handleAll h s0.app ns).2.2 = .ok := by rw [h1]
      have happ : (handleAll h s0.app ns).2.1 = s.app := by rw [h1]
      obtain ⟨k1, k2⟩ := handleAll_snoc h s0.app ns n hok hu
      rw [happ] at k1
      simp only [handleAll, hh] at k1
      have hin' : ∃ rest, onway = n :: rest := by
        cases hr : s.reader with
        | reading => exact ⟨_, w1 hr⟩
        | sending m => exact ⟨_, w2 m hr⟩
        | done => exact w3 hr
      obtain ⟨rest, rfl⟩ := hin'
      refine ⟨ns ++ [n], k2, ⟨rest, by rw [hin]; simp, fun hr => ?_, fun m hr => ?_, fun _ => trivial⟩, ?_, Or.inr ⟨?_, ?_⟩⟩
      · have := w1 hr; injection this
      · have := w2 m hr; injection this
      · rw [k1]
      · rw [k1]; exact fun h => by cases h
      · rw [k1, h2]; simp
    | @finishPanic n a hmain hh =>
      rw [hmain] at hm w1 w2 w3
      obtain ⟨h1, h2⟩ := hm
      have hok : (handleAll h s0.app ns).2.2 = .ok := by rw [h1]
      have happ : (handleAll h s0.app ns).2.1 = s.app := by rw [h1]
      obtain ⟨k1, k2⟩ := handleAll_snoc h s0.app ns n hok hu
      rw [happ] at k1
      simp only [handleAll, hh] at k1
      have hin' : ∃ rest, onway = n :: rest := by
        cases hr : s.reader with
        | reading => exact ⟨_, w1 hr⟩
        | sending m => exact ⟨_, w2 m hr⟩
        | done => exact w3 hr
      obtain ⟨rest, rfl⟩ := hin'
      refine ⟨ns ++ [n], k2, ⟨rest, by rw [hin]; simp, fun hr => ?_, fun m hr => ?_, fun _ => trivial⟩, ?_, Or.inr ⟨?_, ?_⟩⟩
      · have := w1 hr; injection this
      · have := w2 m hr; injection this
      · rw [k1]
      · rw [k1]; exact fun h => by cases h
      · rw [k1, h2]; simp
    | mainCancelled hw hc =>
      rw [hw] at hm w1 w2 w3
      exact ⟨ns, hu, ⟨onway, hin, w1, w2, w3⟩, by rw [hm.1], Or.inl ⟨by rw [hm.1], by rw [hm.2]⟩⟩
    | mainClosed hw hr =>
      rw [hw] at hm w1 w2 w3
      exact ⟨ns, hu, ⟨onway, hin, w1, w2, w3⟩, by rw [hm.1], Or.inl ⟨by rw [hm.1], by rw [hm.2]⟩⟩
    | close hx =>
      rw [hx] at hm w1 w2 w3
      refine ⟨ns, hu, ⟨onway, hin, w1, w2, w3⟩, hm.1, ?_⟩
      rcases hm.2 with ⟨a, b⟩ | ⟨a, b⟩
      · exact Or.inl ⟨a, by rw [b]; simp⟩
      · exact Or.inr ⟨a, by rw [b]⟩

/-! ### C60 -/

/-- C60: whatever the schedule, the loop does what a sequential program does with the first nodes `ns` of the input: it handles them one after the other, in order; a handler's
error is followed by the disconnect frame, and by nothing but the close; and the loop returns only after the close. -/
theorem C60_sequential (input : List N) (a : σ) (tr : List (Ev N)) (s : St N σ) (he : Exec h { input, app := a } tr s) :
    ∃ ns, ns <+: input ∧ (handleAll h a ns).2.1 = s.app ∧
      (match s.main with
        | .waiting => tr = (handleAll h a ns).1 ∧ (handleAll h a ns).2.2 = .ok
        | .handling n => tr = (handleAll h a ns).1 ++ [.begin n] ∧ (handleAll h a ns).2.2 = .ok ∧ ns ++ [n] <+: input
        | .exiting => tr = (handleAll h a ns).1 ++ (if (handleAll h a ns).2.2 = .ok then [.quit] else [])
        | .exited => tr = (handleAll h a ns).1 ++ (if (handleAll h a ns).2.2 = .ok then [.quit] else []) ++ [.close]) := by
  obtain ⟨ns, hu, ⟨onway, hin, w1, w2, w3⟩, hm⟩ := exec_inv h { input, app := a } ⟨rfl, rfl⟩ tr s he
  simp only at hin hm
  refine ⟨ns, ⟨onway, hin.symm⟩, ?_, ?_⟩
  · cases hmain : s.main <;> rw [hmain] at hm
    · simp only at hm; rw [hm.1]
    · simp only at hm; rw [hm.1]
    · exact hm.1
    · exact hm.1
  · cases hmain : s.main <;> rw [hmain] at hm <;> simp only at hm ⊢
    · exact ⟨hm.2, by rw [hm.1]⟩
    · rename_i n
      refine ⟨hm.2, by rw [hm.1], ?_⟩
      have hin' : ∃ rest, onway = n :: rest := by
        rw [hmain] at w1 w2 w3
        cases hr : s.reader with
        | reading => exact ⟨_, w1 hr⟩
        | sending m => exact ⟨_, w2 m hr⟩
        | done => exact w3 hr
      obtain ⟨rest, rfl⟩ := hin'
      exact ⟨rest, by rw [hin]; simp⟩
    · rcases hm.2 with ⟨x, y⟩ | ⟨x, y⟩
      · rw [if_pos x]; exact y
      · rw [if_neg x]; simpa using y
    · rcases hm.2 with ⟨x, y⟩ | ⟨x, y⟩
      · rw [if_pos x]; simpa using y
      · rw [if_neg x]; simpa using y

/-- Whether it is the disconnect frame. conn.go L62-65. -/
def Ev.isDisconnect {N : Type} : Ev N → Bool
  | .disconnect => true
  | _ => false

/-- Whether it is the close. conn.go L51. -/
def Ev.isClose {N : Type} : Ev N → Bool
  | .close => true
  | _ => false

/-- What the sequential program shows: at most one disconnect frame, at the end, if and only if a handler failed; each event but the last belongs to a success. -/
theorem handleAll_shape : ∀ (a : σ) (ns : List N), (∀ e ∈ (handleAll h a ns).1, e.isClose = false) ∧
    (handleAll h a ns).1.countP Ev.isDisconnect = (if (handleAll h a ns).2.2 = .err then 1 else 0) ∧
    ((handleAll h a ns).2.2 = .err → ∃ t n, (handleAll h a ns).1 = t ++ [.finish n .err, .disconnect]) ∧
    (∀ n, .finish n .err ∈ (handleAll h a ns).1 → (handleAll h a ns).2.2 = .err) ∧ (∀ n, .finish n .panic ∈ (handleAll h a ns).1 → (handleAll h a ns).2.2 = .panic)
  | a, [] => by simp [handleAll]
  | a, n :: l => by
    obtain ⟨⟨a', r⟩, hm⟩ : ∃ x, h a n = x := ⟨_, rfl⟩
    simp only [handleAll, hm]
    cases r with
    | ok =>
      obtain ⟨i1, i2, i3, i4, i5⟩ := handleAll_shape a' l
      refine ⟨?_, ?_, fun hx => ?_, fun m hx => ?_, fun m hx => ?_⟩
      · intro e he
        simp only [List.mem_cons] at he
        rcases he with rfl | rfl | he
        · rfl
        · rfl
        · exact i1 e he
      · simpa [List.countP_cons, Ev.isDisconnect] using i2
      · obtain ⟨t, m, ht⟩ := i3 hx
        exact ⟨.begin n :: .finish n .ok :: t, m, by simp only [ht]; rfl⟩
      · simp only [List.mem_cons, reduceCtorEq, Ev.finish.injEq, and_false, false_or] at hx
        exact i4 m hx
      · simp only [List.mem_cons, reduceCtorEq, Ev.finish.injEq, and_false, false_or] at hx
        exact i5 m hx
    | err => exact ⟨by simp [Ev.isClose], by simp [List.countP_cons, Ev.isDisconnect], fun _ => ⟨[.begin n], n, rfl⟩, by simp, by simp⟩
    | panic => exact ⟨by simp [Ev.isClose], by simp [List.countP_cons, Ev.isDisconnect], (fun hx => by cases hx), by simp, by simp⟩

/-- C60: a handler's error is answered with exactly one disconnect frame, and there is none otherwise; nothing is handled after it. -/
theorem C60_disconnect (input : List N) (a : σ) (tr : List (Ev N)) (s : St N σ) (he : Exec h { input, app := a } tr s) :
    (tr.countP Ev.isDisconnect ≤ 1) ∧ ((∃ n, .finish n .err ∈ tr) ↔ 0 < tr.countP Ev.isDisconnect) ∧
      ∀ pre post, tr = pre ++ .disconnect :: post → (∃ t n, pre = t ++ [.finish n .err]) ∧ (post = [] ∨ post = [.close]) := by
  obtain ⟨ns, -, -, hm⟩ := C60_sequential h input a tr s he
  obtain ⟨-, i2, i3, i4, -⟩ := handleAll_shape h a ns
  have key : ∃ post', tr = (handleAll h a ns).1 ++ post' ∧ post'.countP Ev.isDisconnect = 0 ∧ (∀ n, .finish n .err ∉ post') ∧
      ((handleAll h a ns).2.2 = .err → post' = [] ∨ post' = [.close]) := by
    cases hmain : s.main <;> rw [hmain] at hm <;> simp only at hm
    · exact ⟨[], by simp [hm.1], rfl, by simp, fun _ => Or.inl rfl⟩
    · exact ⟨_, hm.1, by simp [Ev.isDisconnect], by simp, fun hx => by rw [hm.2.1] at hx; cases hx⟩
    · refine ⟨_, hm, ?_, ?_, fun hx => Or.inl (by rw [if_neg (by rw [hx]; exact fun h => by cases h)])⟩
      · split <;> rfl
      · split <;> simp
    · refine ⟨_, hm.trans (List.append_assoc ..), ?_, ?_, fun hx => Or.inr (by rw [if_neg (by rw [hx]; exact fun h => by cases h)]; rfl)⟩
      · split <;> rfl
      · split <;> simp
  obtain ⟨post', htr, h0, hno, hp⟩ := key
  have hcount : tr.countP Ev.isDisconnect = if (handleAll h a ns).2.2 = .err then 1 else 0 := by rw [htr, List.countP_append, h0, i2]; rfl
  refine ⟨by rw [hcount]; split <;> omega, ⟨?_, ?_⟩, ?_⟩
  · rintro ⟨n, hn⟩
    rw [htr, List.mem_append] at hn
    rcases hn with hn | hn
    · rw [hcount, if_pos (i4 n hn)]; omega
    · exact absurd hn (hno n)
  · intro hpos
    rw [hcount] at hpos
    split at hpos
    · rename_i herr
      obtain ⟨t, n, ht⟩ := i3 herr
      exact ⟨n, by rw [htr, ht]; simp⟩
    · omega
  · intro pre post hpp
    have herr : (handleAll h a ns).2.2 = .err := by
      have : 0 < tr.countP Ev.isDisconnect := by rw [hpp, List.countP_append, List.countP_cons_of_pos (by rfl)]; omega
      rw [hcount] at this
      split at this
      · assumption
      · omega
    obtain ⟨t, n, ht⟩ := i3 herr
    rw [ht] at htr
    have hpost := hp herr
    have ht0 : t.countP Ev.isDisconnect = 0 := by
      rw [ht, herr, List.countP_append, if_pos rfl] at i2
      have : ([.finish n .err, .disconnect] : List (Ev N)).countP Ev.isDisconnect = 1 := rfl
      omega
    -- the disconnect frame is unique
    have hu : pre = t ++ [.finish n .err] ∧ post = post' := by
      have e : pre ++ .disconnect :: post = (t ++ [.finish n .err]) ++ .disconnect :: post' := by rw [← hpp, htr]; simp
      have hpre : pre.countP Ev.isDisconnect + post.countP Ev.isDisconnect = 0 := by
        have := hcount
        rw [hpp, if_pos herr] at this
        rw [List.countP_append, List.countP_cons_of_pos (by rfl)] at this
        omega
      rcases List.append_eq_append_iff.mp e with ⟨c, h1, h2⟩ | ⟨c, h1, h2⟩
      · cases c with
        | nil => exact ⟨by simpa using h1.symm, by simpa using h2⟩
        | cons x c =>
          rw [List.cons_append] at h2; injection h2 with hx h2
          have : (t ++ [Ev.finish n .err]).countP Ev.isDisconnect = 0 := by rw [List.countP_append, ht0]; rfl
          rw [h1, ← hx] at this
          simp [List.countP_cons, Ev.isDisconnect] at this
      · cases c with
        | nil => exact ⟨by simpa using h1, by simpa using h2.symm⟩
        | cons x c =>
          rw [List.cons_append] at h2; injection h2 with hx h2
          rw [h1, ← hx] at hpre
          simp [List.countP_cons, Ev.isDisconnect] at hpre
    exact ⟨⟨t, n, hu.1⟩, by rw [hu.2]; exact hpost⟩

/-- C60: however the loop ends - cancelled, the connection failed, a handler failed or panicked -, when it has ended the connection was closed, once, as the last thing. -/
theorem C60_closed (input : List N) (a : σ) (tr : List (Ev N)) (s : St N σ) (he : Exec h { input, app := a } tr s) :
    (s.main = .exited → ∃ t, tr = t ++ [.close] ∧ ∀ e ∈ t, e.isClose = false) ∧ (s.main ≠ .exited → ∀ e ∈ tr, e.isClose = false) := by
  obtain ⟨ns, -, -, hm⟩ := C60_sequential h input a tr s he
  obtain ⟨i1, -⟩ := handleAll_shape h a ns
  have hq : ∀ e ∈ (if (handleAll h a ns).2.2 = .ok then [Ev.quit (N := N)] else []), e.isClose = false := by
    intro e he; split at he
    · simp only [List.mem_singleton] at he; subst he; rfl
    · simp at he
  constructor
  · intro hx
    rw [hx] at hm
    refine ⟨_, hm, fun e he => ?_⟩
    rcases List.mem_append.mp he with he | he
    · exact i1 e he
    · exact hq e he
  · intro hx e he
    cases hmain : s.main <;> rw [hmain] at hm <;> simp only at hm
    · rw [hm.1] at he; exact i1 e he
    · rw [hm.1] at he
      rcases List.mem_append.mp he with he | he
      · exact i1 e he
      · simp only [List.mem_singleton] at he; subst he; rfl
    · rw [hm] at he
      rcases List.mem_append.mp he with he | he
      · exact i1 e he
      · exact hq e he
    · exact absurd hmain hx

/-- C60: the loop can always go on to its end once the context is cancelled: at any moment there are at most three more steps of its own. -/
theorem C60_ends (s : St N σ) (hc : s.cancelled = true) : ∃ tr s', Exec h s tr s' ∧ s'.main = .exited ∧ tr.length ≤ 4 := by
  have hexit : ∀ s : St N σ, s.main = .exiting → ∃ s', Step h s [.close] s' ∧ s'.main = .exited := fun s hs => ⟨_, .close hs, rfl⟩
  have hwait : ∀ s : St N σ, s.main = .waiting → s.cancelled = true → ∃ s', Step h s [.quit] s' ∧ s'.main = .exiting := fun s hs hc => ⟨_, .mainCancelled hs hc, rfl⟩
  cases hm : s.main with
  | exited => exact ⟨[], s, .nil, hm, by simp⟩
  | exiting =>
    obtain ⟨s1, k1, k2⟩ := hexit s hm
    exact ⟨_, s1, .snoc .nil k1, k2, by simp⟩
  | waiting =>
    obtain ⟨s1, k1, k2⟩ := hwait s hm hc
    obtain ⟨s2, k3, k4⟩ := hexit s1 k2
    exact ⟨_, s2, .snoc (.snoc .nil k1) k3, k4, by simp⟩
  | handling n =>
    rcases hh : h s.app n with ⟨a, r⟩
    cases r with
    | ok =>
      have k0 := Step.finish hm hh
      obtain ⟨s1, k1, k2⟩ := hwait { s with main := .waiting, app := a } rfl hc
      obtain ⟨s2, k3, k4⟩ := hexit s1 k2
      exact ⟨_, s2, .snoc (.snoc (.snoc .nil k0) k1) k3, k4, by simp⟩
    | err =>
      have k0 := Step.finishErr hm hh
      obtain ⟨s2, k3, k4⟩ := hexit { s with main := .exiting, app := a } rfl
      exact ⟨_, s2, .snoc (.snoc .nil k0) k3, k4, by simp⟩
    | panic =>
      have k0 := Step.finishPanic hm hh
      obtain ⟨s2, k3, k4⟩ := hexit { s with main := .exiting, app := a } rfl
      exact ⟨_, s2, .snoc (.snoc .nil k0) k3, k4, by simp⟩

/-! ### C90: the reading goroutine ends -/

/-- C90: the reading goroutine can end in every state but one: it has read a node, the loop will not take it, and the context is not cancelled. -/
theorem C90_ends_partial (s : St N σ) (hr : ∀ n, s.reader = .sending n → s.cancelled = true) : ∃ tr s', Exec h s tr s' ∧ s'.reader = .done := by
  cases h1 : s.reader with
  | reading => exact ⟨_, _, .snoc .nil (.fail h1), rfl⟩
  | sending n => exact ⟨_, _, .snoc .nil (.readerQuit h1 (hr n h1)), rfl⟩
  | done => exact ⟨_, s, .nil, h1⟩

/-- C90: in that state, which is reached whenever the peer has sent something after the frame that failed, the goroutine never ends unless the context is cancelled: the loop has returned and the connection is closed. -/
theorem C90_violated (n m : N) (a : σ) (hn : (h a n).2 = .err) :
    ∃ tr s, Exec h { input := [n, m], app := a } tr s ∧ s.main = .exited ∧ .close ∈ tr ∧ s.reader = .sending m ∧
      ∀ es s', Step h s es s' → s' = { s with cancelled := true } := by
  rcases hh : h a n with ⟨a', r⟩
  rw [hh] at hn
  subst hn
  have e0 : Exec h { input := [n, m], app := a } [] _ := .snoc .nil (.read rfl rfl)
  have e1 := Exec.snoc e0 (.handoff (n := n) rfl rfl)
  have e2 := Exec.snoc e1 (.read (n := m) (l := []) rfl rfl)
  have e3 := Exec.snoc e2 (.finishErr (n := n) rfl hh)
  have e4 := Exec.snoc e3 (.close rfl)
  refine ⟨_, _, e4, rfl, by simp, rfl, fun es s' hs => ?_⟩
  generalize hs1 : ({ input := [], reader := .sending m, main := .exited, cancelled := false, app := a' } : St N σ) = s1 at hs
  have hs2 : ({ input := [], reader := .sending m, main := .exited, cancelled := false, app := a' } : St N σ) = s1 := hs1
  cases hs <;> first | rfl | (subst hs2; contradiction) | (rename_i q; subst hs2; cases q) | (rename_i q _; subst hs2; cases q)

end

/-! ### examples -/

/-- A handler that adds, fails at 3 and panics at 4. -/
def addUp (a n : Nat) : Nat × HRes := if n = 3 then (a, .err) else if n = 4 then (a, .panic) else (a + n, .ok)

example : handleAll addUp 0 [1, 2, 3, 5] = ([.begin 1, .finish 1 .ok, .begin 2, .finish 2 .ok, .begin 3, .finish 3 .err, .disconnect], 3, .err) := by decide

/-- An execution in which the second node is read while the first is handled. -/
example : ∃ s, Exec addUp { input := [1, 3, 5], app := 0 } [.begin 1, .finish 1 .ok, .begin 3, .finish 3 .err, .disconnect, .close] s ∧ s.app = 1 := by
  have e0 : Exec addUp { input := [1, 3, 5], app := 0 } [] _ := .snoc .nil (.read rfl rfl)
  have e1 := Exec.snoc e0 (.handoff (n := 1) rfl rfl)
  have e2 := Exec.snoc e1 (.read (n := 3) (l := [5]) rfl rfl)
  have e3 := Exec.snoc e2 (.finish (n := 1) (a := 1) rfl rfl)
  have e4 := Exec.snoc e3 (.handoff (n := 3) rfl rfl)
  have e5 := Exec.snoc e4 (.finishErr (n := 3) (a := 1) rfl rfl)
  have e6 := Exec.snoc e5 (.close rfl)
  exact ⟨_, e6, rfl⟩

end Verif.Ws

import Verif.Base
/-!
# Several goroutines writing to one websocket connection (/repo/http/ws/ws.go L32-60, L123-129)

`Write` writes a frame while it holds the mutex of `wsImpl`; `Close` calls `WriteClose` of `x/net/websocket`, which holds a mutex of its own (`wio`) instead. Both go through one
`bufio.Writer`: header, payload, flush. Modelled as steps of the goroutines; the buffer may also be emptied in part at any time (it is when it is full). Bytes are numbers below 256.
The frames are those of a server, without mask. The connection takes all bytes; the data race inside `bufio.Writer` that overlapping calls are as well is not modelled.
-/
set_option autoImplicit false
namespace Verif.Ws.Writers

/-- What is written: a text message (ws.go L39-45), or the end with a status (ws.go L123-124). -/
inductive Msg where
  | text (p : List Nat)
  | close (p : List Nat)
deriving DecidableEq

/-- The opcode. ws.go L49, L124. -/
def Msg.op : Msg → Nat
  | .text _ => 1
  | .close _ => 8

/-- The payload: the bytes of the message, or the two bytes of the status. ws.go L53, L124. -/
def Msg.payload : Msg → List Nat
  | .text p => p
  | .close p => p

/-- The header `hybiFrameWriter.Write` writes for a payload of length `n`. ws.go L53, L124. -/
def header (op n : Nat) : List Nat :=
  (0x80 + op) ::
    if n ≤ 125 then [n]
    else if n < 65536 then [126, n / 256, n % 256]
    else [127, n / 2 ^ 56 % 256, n / 2 ^ 48 % 256, n / 2 ^ 40 % 256, n / 2 ^ 32 % 256, n / 2 ^ 24 % 256, n / 2 ^ 16 % 256, n / 2 ^ 8 % 256, n % 256]

/-- How far a goroutine is. ws.go L39-60, L123-129. -/
inductive Pc where
  | idle
  | locked (m : Msg)
  | headed (m : Msg)
  | filled (m : Msg)
  | flushed (m : Msg)
deriving DecidableEq

/-- The connection: who holds the mutex of `wsImpl`, who that of `x/net/websocket`, the buffer, and what the peer has been sent. ws.go L32-35. -/
structure St where
  m : Option Nat := none
  wio : Option Nat := none
  buf : List Nat := []
  out : List Nat := []
  pc : Nat → Pc := fun _ => .idle

/-- Steps of goroutine `i`: it calls `Write` or `Close` and gets the mutex, writes the header, the payload, flushes, lets go of the mutex; the buffer passes on some bytes.
ws.go L39-60, L123-129. -/
inductive Act where
  | start (i : Nat) (m : Msg)
  | head (i : Nat)
  | fill (i : Nat)
  | flush (i : Nat)
  | done (i : Nat)
  | spill (k : Nat)
deriving DecidableEq

/-- Another program counter for goroutine `i`. ws.go L39-60. -/
def St.goto (s : St) (i : Nat) (p : Pc) : St := { s with pc := fun j => if j = i then p else s.pc j }

/-- The steps: `none` if the step is not possible. ws.go L39-60 (`Write`), L123-124 (`Close`). -/
def step (s : St) : Act → Option St
  | .start i msg =>
    match s.pc i, msg with
    | .idle, .text _ => if s.m = none then some { s.goto i (.locked msg) with m := some i } else none
    | .idle, .close _ => if s.wio = none then some { s.goto i (.locked msg) with wio := some i } else none
    | _, _ => none
  | .head i =>
    match s.pc i with
    | .locked msg => some { s.goto i (.headed msg) with buf := s.buf ++ header msg.op msg.payload.length }
    | _ => none
  | .fill i =>
    match s.pc i with
    | .headed msg => some { s.goto i (.filled msg) with buf := s.buf ++ msg.payload }
    | _ => none
  | .flush i =>
    match s.pc i with
    | .filled msg => some { s.goto i (.flushed msg) with out := s.out ++ s.buf, buf := [] }
    | _ => none
  | .done i =>
    match s.pc i with
    | .flushed (.text _) => some { s.goto i .idle with m := none }
    | .flushed (.close _) => some { s.goto i .idle with wio := none }
    | _ => none
  | .spill k => some { s with out := s.out ++ s.buf.take k, buf := s.buf.drop k }

/-- Executions. ws.go L39-60, L123-124. -/
def run (s : St) : List Act → Option St
  | [] => some s
  | a :: l => match step s a with
    | some s => run s l
    | none => none

/-! ### specification -/

/-- The bytes of a frame. -/
def bytes (m : Msg) : List Nat := header m.op m.payload.length ++ m.payload

/-- The calls, in the order in which they got the mutex. -/
def calls : List Act → List Msg
  | [] => []
  | .start _ m :: l => m :: calls l
  | _ :: l => calls l

/-- Nobody is writing anything of the kind `close` (or `text`). -/
def Quiet (s : St) (close : Bool) : Prop :=
  ∀ i, match s.pc i with
    | .idle => True
    | .locked m | .headed m | .filled m | .flushed m => m.op = 8 ↔ close = false

/-- A `Write` may begin if no `Close` is under way, and the other way round. -/
def AllowedAct (s : St) : Act → Prop
  | .start _ (.text _) => Quiet s true
  | .start _ (.close _) => Quiet s false
  | _ => True

/-- No `Close` begins while a `Write` is under way, and the other way round. -/
def Apart (s : St) : List Act → Prop
  | [] => True
  | a :: l =>
    AllowedAct s a ∧
    match step s a with
    | some s => Apart s l
    | none => True

/-- A number from its bytes, the first of them the highest. -/
def ofBytes (l : List Nat) : Nat := l.foldl (fun n b => n * 256 + b) 0

/-- How the peer reads one frame: opcode, payload and what follows; `none` if there is no whole frame (RFC 6455, 5.2). -/
def readFrame : List Nat → Option (Nat × List Nat × List Nat)
  | b0 :: b1 :: r =>
    if b1 ≤ 125 then if r.length < b1 then none else some (b0 % 16, r.take b1, r.drop b1)
    else
      let k := if b1 = 126 then 2 else 8
      if r.length < k then none
      else
        let n := ofBytes (r.take k)
        if (r.drop k).length < n then none else some (b0 % 16, (r.drop k).take n, (r.drop k).drop n)
  | _ => none

/-- How the peer reads what it is sent: the frames, and the bytes that are left. -/
def readAll : Nat → List Nat → List (Nat × List Nat) × List Nat
  | 0, l => ([], l)
  | fuel + 1, l =>
    match readFrame l with
    | none => ([], l)
    | some (op, p, r) => let x := readAll fuel r; ((op, p) :: x.1, x.2)

/-! ### lemmas -/

theorem header_length (op n : Nat) : 2 ≤ (header op n).length := by
  unfold header
  split
  · simp
  · split <;> simp

theorem ofBytes8 (n : Nat) (h : n < 2 ^ 64) : ofBytes [n / 2 ^ 56 % 256, n / 2 ^ 48 % 256, n / 2 ^ 40 % 256, n / 2 ^ 32 % 256, n / 2 ^ 24 % 256, n / 2 ^ 16 % 256, n / 2 ^ 8 % 256, n % 256] = n := by
  simp only [ofBytes, List.foldl_cons, List.foldl_nil]
  omega

/-- A whole frame is read as what was written. -/
theorem readFrame_bytes (m : Msg) (h : m.payload.length < 2 ^ 64) (r : List Nat) : readFrame (bytes m ++ r) = some (m.op, m.payload, r) := by
  have hop : (0x80 + m.op) % 16 = m.op := by cases m <;> simp [Msg.op]
  unfold bytes header
  by_cases h1 : m.payload.length ≤ 125
  · simp only [h1, if_true, List.cons_append, List.nil_append, readFrame]
    rw [if_neg (by simp)]
    simp [hop]
  · by_cases h2 : m.payload.length < 65536
    · simp only [h1, h2, if_true, if_false, List.cons_append, List.nil_append, readFrame, show ¬ 126 ≤ 125 by decide]
      have hn : ofBytes [m.payload.length / 256, m.payload.length % 256] = m.payload.length := by
        simp only [ofBytes, List.foldl_cons, List.foldl_nil]; omega
      rw [if_neg (by simp)]
      simp only [List.take_succ_cons, List.take_zero, List.drop_succ_cons, List.drop_zero, hn]
      rw [if_neg (by simp)]
      simp [hop]
    · simp only [h1, h2, if_false, List.cons_append, List.nil_append, readFrame, show ¬ 127 ≤ 125 by decide, show ¬ 127 = 126 by decide]
      rw [if_neg (by simp)]
      simp only [List.take_succ_cons, List.take_zero, List.drop_succ_cons, List.drop_zero, ofBytes8 _ h]
      rw [if_neg (by simp)]
      simp [hop]

theorem readAll_bytes : ∀ (ms : List Msg), (∀ m ∈ ms, m.payload.length < 2 ^ 64) → ∀ fuel, ms.length ≤ fuel →
    readAll fuel ((ms.map bytes).flatten) = (ms.map fun m => (m.op, m.payload), [])
  | [], _, fuel, _ => by
    cases fuel with
    | zero => rfl
    | succ fuel => rfl
  | m :: ms, h, fuel, hf => by
    obtain ⟨fuel, rfl⟩ : ∃ k, fuel = k + 1 := ⟨fuel - 1, by simp at hf; omega⟩
    simp only [List.map_cons, List.flatten_cons, readAll]
    rw [readFrame_bytes m (h m (List.mem_cons_self ..))]
    simp only
    rw [readAll_bytes ms (fun x hx => h x (List.mem_cons_of_mem _ hx)) fuel (by simpa using hf)]

/-- What a goroutine has put into the buffer so far. -/
def Pc.part : Pc → List Nat
  | .idle => []
  | .locked _ => []
  | .headed m => header m.op m.payload.length
  | .filled m => bytes m
  | .flushed m => bytes m

/-- The message a goroutine is writing. -/
def Pc.msg? : Pc → Option Msg
  | .idle => none
  | .locked m | .headed m | .filled m | .flushed m => some m

/-- The invariant, as long as calls of the two kinds keep apart: either all is written, or one goroutine is at work and what is missing is the rest of its frame. -/
structure Inv (s : St) (ms : List Msg) : Prop where
  one : (∀ i, s.pc i = .idle) ∧ s.m = none ∧ s.wio = none ∧ s.buf = [] ∧ s.out = (ms.map bytes).flatten ∨
    ∃ i m ms', ms = ms' ++ [m] ∧ (s.pc i).msg? = some m ∧ (∀ j, j ≠ i → s.pc j = .idle) ∧ (∃ y, s.out = (ms'.map bytes).flatten ++ y ∧ y ++ s.buf = (s.pc i).part) ∧
      (∀ x, s.pc i = .flushed x → s.buf = []) ∧ (match m with | .text _ => s.m = some i ∧ s.wio = none | .close _ => s.wio = some i ∧ s.m = none)

theorem idle_only (s : St) (i j : Nat) (m : Msg) (hi : ∀ j, j ≠ i → s.pc j = .idle) (h : (s.pc j).msg? = some m) : j = i := by
  by_cases hj : j = i
  · exact hj
  · rw [hi j hj] at h; cases h

theorem inv_step (s s' : St) (ms : List Msg) (a : Act) (h : Inv s ms) (hq : AllowedAct s a) (hs : step s a = some s') : Inv s' (ms ++ calls [a]) := by
  cases a with
  | start i msg =>
    have hidle : s.pc i = .idle := by
      cases hp : s.pc i with
      | idle => rfl
      | _ => cases msg <;> simp [step, hp] at hs
    rcases h.one with ⟨h1, h2, h3, h4, h5⟩ | ⟨i0, m0, ms', hms, hm0, hoth, ⟨y, hout, hy⟩, hfl, hlock⟩
    · cases msg with
      | text p =>
        simp only [step, hidle, h2, if_true, Option.some.injEq] at hs
        subst hs
        refine ⟨Or.inr ⟨i, .text p, ms, rfl, by simp [St.goto, Pc.msg?], fun j hj => by simp [St.goto, hj, h1], ?_, ?_, by simp [h3, St.goto]⟩⟩
        · exact ⟨[], by simp [St.goto, h5], by simp [St.goto, Pc.part, h4]⟩
        · simp [St.goto]
      | close p =>
        simp only [step, hidle, h3, if_true, Option.some.injEq] at hs
        subst hs
        refine ⟨Or.inr ⟨i, .close p, ms, rfl, by simp [St.goto, Pc.msg?], fun j hj => by simp [St.goto, hj, h1], ?_, ?_, by simp [h2, St.goto]⟩⟩
        · exact ⟨[], by simp [St.goto, h5], by simp [St.goto, Pc.part, h4]⟩
        · simp [St.goto]
    · exfalso
      cases msg with
      | text p =>
        cases m0 with
        | text p0 =>
          simp only at hlock
          simp [step, hidle, hlock.1] at hs
        | close p0 =>
          have := hq i0
          cases hp : s.pc i0 <;> rw [hp] at hm0 this <;> simp only [Pc.msg?, Option.some.injEq, reduceCtorEq] at hm0 <;> subst hm0 <;> simp [Msg.op] at this
      | close p =>
        cases m0 with
        | close p0 =>
          simp only at hlock
          simp [step, hidle, hlock.1] at hs
        | text p0 =>
          have := hq i0
          cases hp : s.pc i0 <;> rw [hp] at hm0 this <;> simp only [Pc.msg?, Option.some.injEq, reduceCtorEq] at hm0 <;> subst hm0 <;> simp [Msg.op] at this
  | spill k =>
    simp only [step, Option.some.injEq] at hs
    subst hs
    rw [show calls [Act.spill k] = [] from rfl, List.append_nil]
    rcases h.one with ⟨h1, h2, h3, h4, h5⟩ | ⟨i0, m0, ms', hms, hm0, hoth, ⟨y, hout, hy⟩, hfl, hlock⟩
    · exact ⟨Or.inl ⟨h1, h2, h3, by simp [h4], by simp [h4, h5]⟩⟩
    · refine ⟨Or.inr ⟨i0, m0, ms', hms, hm0, hoth, ?_, ?_, hlock⟩⟩
      · exact ⟨y ++ s.buf.take k, by rw [hout, List.append_assoc], by rw [List.append_assoc, List.take_append_drop]; exact hy⟩
      · intro x hx; simp [hfl x hx]
  | head i =>
    rw [show calls [Act.head i] = [] from rfl, List.append_nil]
    simp only [step] at hs
    split at hs
    · rename_i msg hp
      injection hs with hs; subst hs
      rcases h.one with ⟨h1, _⟩ | ⟨i0, m0, ms', hms, hm0, hoth, ⟨y, hout, hy⟩, hfl, hlock⟩
      · rw [h1 i] at hp; cases hp
      · have hi : i = i0 := idle_only s i0 i msg hoth (by rw [hp]; rfl)
        subst hi
        rw [hp] at hm0 hy
        injection hm0 with hm0; subst hm0
        refine ⟨Or.inr ⟨i, msg, ms', hms, by simp [St.goto, Pc.msg?], fun j hj => by simp [St.goto, hj, hoth j hj], ?_, by simp [St.goto], hlock⟩⟩
        refine ⟨y, hout, ?_⟩
        simp only [St.goto, if_true, Pc.part] at hy ⊢
        rw [← List.append_assoc, hy, List.nil_append]
    · cases hs
  | fill i =>
    rw [show calls [Act.fill i] = [] from rfl, List.append_nil]
    simp only [step] at hs
    split at hs
    · rename_i msg hp
      injection hs with hs; subst hs
      rcases h.one with ⟨h1, _⟩ | ⟨i0, m0, ms', hms, hm0, hoth, ⟨y, hout, hy⟩, hfl, hlock⟩
      · rw [h1 i] at hp; cases hp
      · have hi : i = i0 := idle_only s i0 i msg hoth (by rw [hp]; rfl)
        subst hi
        rw [hp] at hm0 hy
        injection hm0 with hm0; subst hm0
        refine ⟨Or.inr ⟨i, msg, ms', hms, by simp [St.goto, Pc.msg?], fun j hj => by simp [St.goto, hj, hoth j hj], ?_, by simp [St.goto], hlock⟩⟩
        refine ⟨y, hout, ?_⟩
        simp only [St.goto, if_true, Pc.part, bytes] at hy ⊢
        rw [← List.append_assoc, hy]
    · cases hs
  | flush i =>
    rw [show calls [Act.flush i] = [] from rfl, List.append_nil]
    simp only [step] at hs
    split at hs
    · rename_i msg hp
      injection hs with hs; subst hs
      rcases h.one with ⟨h1, _⟩ | ⟨i0, m0, ms', hms, hm0, hoth, ⟨y, hout, hy⟩, hfl, hlock⟩
      · rw [h1 i] at hp; cases hp
      · have hi : i = i0 := idle_only s i0 i msg hoth (by rw [hp]; rfl)
        subst hi
        rw [hp] at hm0 hy
        injection hm0 with hm0; subst hm0
        refine ⟨Or.inr ⟨i, msg, ms', hms, by simp [St.goto, Pc.msg?], fun j hj => by simp [St.goto, hj, hoth j hj], ?_, by simp [St.goto], hlock⟩⟩
        refine ⟨y ++ s.buf, ?_, ?_⟩
        · show s.out ++ s.buf = _
          rw [hout, List.append_assoc]
        · simp only [St.goto, if_true, Pc.part, List.append_nil] at hy ⊢
          exact hy
    · cases hs
  | done i =>
    rw [show calls [Act.done i] = [] from rfl, List.append_nil]
    simp only [step] at hs
    split at hs
    · rename_i p hp
      injection hs with hs; subst hs
      rcases h.one with ⟨h1, _⟩ | ⟨i0, m0, ms', hms, hm0, hoth, ⟨y, hout, hy⟩, hfl, hlock⟩
      · rw [h1 i] at hp; cases hp
      · have hi : i = i0 := idle_only s i0 i _ hoth (by rw [hp]; rfl)
        subst hi
        rw [hp] at hm0 hy
        injection hm0 with hm0; subst hm0
        have hb := hfl _ hp
        refine ⟨Or.inl ⟨fun j => ?_, rfl, hlock.2, hb, ?_⟩⟩
        · by_cases hj : j = i <;> simp [St.goto, hj, hoth j]
        · rw [hb, List.append_nil] at hy
          simp only [St.goto, hout, hms, hy, Pc.part]; simp
    · rename_i p hp
      injection hs with hs; subst hs
      rcases h.one with ⟨h1, _⟩ | ⟨i0, m0, ms', hms, hm0, hoth, ⟨y, hout, hy⟩, hfl, hlock⟩
      · rw [h1 i] at hp; cases hp
      · have hi : i = i0 := idle_only s i0 i _ hoth (by rw [hp]; rfl)
        subst hi
        rw [hp] at hm0 hy
        injection hm0 with hm0; subst hm0
        have hb := hfl _ hp
        refine ⟨Or.inl ⟨fun j => ?_, hlock.2, rfl, hb, ?_⟩⟩
        · by_cases hj : j = i <;> simp [St.goto, hj, hoth j]
        · rw [hb, List.append_nil] at hy
          simp only [St.goto, hout, hms, hy, Pc.part]; simp
    · cases hs

theorem calls_cons (a : Act) (l : List Act) : calls (a :: l) = calls [a] ++ calls l := by cases a <;> rfl

theorem inv_run : ∀ (l : List Act) (s s' : St) (ms : List Msg), Inv s ms → Apart s l → run s l = some s' → Inv s' (ms ++ calls l)
  | [], s, s', ms, h, _, hr => by injection hr with hr; subst hr; rw [calls, List.append_nil]; exact h
  | a :: l, s, s', ms, h, ha, hr => by
    rw [run] at hr
    cases hs : step s a with
    | none => rw [hs] at hr; cases hr
    | some s1 =>
      rw [hs] at hr
      have h1 := inv_step s s1 ms a h ha.1 hs
      have h2 := ha.2
      rw [hs] at h2
      have := inv_run l s1 s' _ h1 h2 hr
      rwa [List.append_assoc, ← calls_cons] at this

theorem inv_init : Inv {} [] := ⟨Or.inl ⟨fun _ => rfl, rfl, rfl, rfl, rfl⟩⟩

/-! ### properties -/

/-- C133, as long as no `Close` overlaps a `Write`: at any time the frames of all calls but the last have gone out whole, in the order in which they got the mutex, followed by the
beginning of the last one; nothing of it is missing when all calls have returned. -/
theorem C133_prefix_partial (l : List Act) (s : St) (h : run {} l = some s) (ha : Apart {} l) :
    s.out = ((calls l).map bytes).flatten ∨
      (∃ i, s.pc i ≠ .idle) ∧ ∃ ms m y z, calls l = ms ++ [m] ∧ s.out = (ms.map bytes).flatten ++ y ∧ y ++ z = bytes m := by
  have := (inv_run l {} s [] inv_init ha h).one
  rw [List.nil_append] at this
  rcases this with ⟨h1, h2, h3, h4, h5⟩ | ⟨i, m, ms', hms, hm, hoth, ⟨y, hout, hy⟩, hfl, hlock⟩
  · exact Or.inl h5
  · refine Or.inr ⟨⟨i, fun hi => by rw [hi] at hm; cases hm⟩, ms', m, y, ?_⟩
    have hpart : ∃ r, (s.pc i).part ++ r = bytes m := by
      cases hp : s.pc i <;> rw [hp] at hm <;> simp only [Pc.msg?, Option.some.injEq, reduceCtorEq] at hm <;> subst hm <;> simp only [Pc.part]
      · exact ⟨_, List.nil_append _⟩
      · exact ⟨_, rfl⟩
      · exact ⟨[], List.append_nil _⟩
      · exact ⟨[], List.append_nil _⟩
    obtain ⟨r, hr⟩ := hpart
    exact ⟨s.buf ++ r, hms, hout, by rw [← List.append_assoc, hy, hr]⟩

/-- A message goes out in two pieces, then a close begins. -/
example : ((run {} [.start 1 (.text [104, 105]), .head 1, .spill 1, .fill 1, .flush 1, .done 1, .start 2 (.close [3, 232]), .head 2, .spill 9]).map (·.out)) =
    some [0x81, 2, 104, 105, 0x88, 2] := rfl

/-- C133, as long as no `Close` overlaps a `Write`: when all calls have returned, the peer reads exactly their frames, in the order in which they got the mutex. -/
theorem C133_frames_partial (l : List Act) (s : St) (h : run {} l = some s) (ha : Apart {} l) (hi : ∀ i, s.pc i = .idle)
    (hlen : ∀ m ∈ calls l, m.payload.length < 2 ^ 64) (fuel : Nat) (hf : (calls l).length ≤ fuel) :
    readAll fuel s.out = ((calls l).map fun m => (m.op, m.payload), []) := by
  rcases C133_prefix_partial l s h ha with h1 | ⟨⟨i, h1⟩, _⟩
  · rw [h1]; exact readAll_bytes _ hlen fuel hf
  · exact absurd (hi i) h1

example (s : St) (h : run {} [.start 1 (.text [104]), .head 1, .fill 1, .flush 1, .done 1, .start 1 (.close [3, 232]), .head 1, .fill 1, .flush 1, .done 1] = some s) :
    readAll 2 s.out = ([(1, [104]), (8, [3, 232])], []) := by
  refine C133_frames_partial _ s h ?_ ?_ (by decide) 2 (by decide)
  · simp [Apart, AllowedAct, Quiet, step, St.goto, Msg.op]
    intro i; split <;> simp_all <;> split at * <;> simp_all
  · cases h; intro i; simp only [St.goto]; split <;> simp_all

/-- The messages under way are texts. -/
def Texts (s : St) : Prop := ∀ i m, (s.pc i).msg? = some m → m.op ≠ 8

theorem texts_step (s s' : St) (a : Act) (h : Texts s) (hs : step s a = some s') (ha : ∀ m ∈ calls [a], ∃ p, m = .text p) : Texts s' := by
  have goto : ∀ (s : St) (i : Nat) (p : Pc), Texts s → (∀ m, p.msg? = some m → m.op ≠ 8) → Texts (s.goto i p) := by
    intro s i p h hp j m hj
    by_cases hji : j = i
    · simp only [St.goto, hji, if_true] at hj; exact hp m hj
    · simp only [St.goto, hji, if_false] at hj; exact h j m hj
  cases a with
  | start i msg =>
    obtain ⟨p, rfl⟩ := ha msg (List.mem_singleton.2 rfl)
    simp only [step] at hs
    split at hs
    · split at hs
      · injection hs with hs; subst hs
        exact goto s i _ h (fun m hm => by simp only [Pc.msg?, Option.some.injEq] at hm; subst hm; simp [Msg.op])
      · cases hs
    · rename_i he; cases he
    · cases hs
  | head i =>
    simp only [step] at hs
    split at hs
    · rename_i msg hp
      injection hs with hs; subst hs
      exact goto s i _ h (fun m hm => h i m (by rw [hp]; exact hm))
    · cases hs
  | fill i =>
    simp only [step] at hs
    split at hs
    · rename_i msg hp
      injection hs with hs; subst hs
      exact goto s i _ h (fun m hm => h i m (by rw [hp]; exact hm))
    · cases hs
  | flush i =>
    simp only [step] at hs
    split at hs
    · rename_i msg hp
      injection hs with hs; subst hs
      exact goto s i _ h (fun m hm => h i m (by rw [hp]; exact hm))
    · cases hs
  | done i =>
    simp only [step] at hs
    split at hs
    · injection hs with hs; subst hs
      exact goto s i _ h (fun m hm => by cases hm)
    · injection hs with hs; subst hs
      exact goto s i _ h (fun m hm => by cases hm)
    · cases hs
  | spill k =>
    injection hs with hs; subst hs; exact h

theorem texts_apart : ∀ (l : List Act) (s : St), Texts s → (∀ m ∈ calls l, ∃ p, m = .text p) → Apart s l
  | [], _, _, _ => trivial
  | a :: l, s, h, hw => by
    rw [calls_cons] at hw
    have h1 : ∀ m ∈ calls [a], ∃ p, m = .text p := fun m hm => hw m (List.mem_append_left _ hm)
    refine ⟨?_, ?_⟩
    · cases a with
      | start i msg =>
        obtain ⟨p, rfl⟩ := h1 msg (List.mem_singleton.2 rfl)
        intro j
        have := h j
        cases hp : s.pc j with
        | idle => trivial
        | _ m => rw [hp] at this; have := this m rfl; simp [this]
      | _ => trivial
    · cases hs : step s a with
      | none => trivial
      | some s1 => exact texts_apart l s1 (texts_step s s1 a h hs h1) (fun m hm => hw m (List.mem_append_right _ hm))

/-- C133, for calls of `Write` only: however many goroutines write, when all calls have returned the peer reads exactly their messages, in the order in which they got the mutex. -/
theorem C133_writes_partial (l : List Act) (s : St) (h : run {} l = some s) (hw : ∀ m ∈ calls l, ∃ p, m = .text p) (hi : ∀ i, s.pc i = .idle)
    (hlen : ∀ m ∈ calls l, m.payload.length < 2 ^ 64) (fuel : Nat) (hf : (calls l).length ≤ fuel) :
    readAll fuel s.out = ((calls l).map fun m => (1, m.payload), []) := by
  rw [C133_frames_partial l s h (texts_apart l {} (fun _ _ hm => by cases hm) hw) hi hlen fuel hf]
  congr 1
  apply List.map_congr_left
  intro m hm
  obtain ⟨p, rfl⟩ := hw m hm
  rfl

/-- Two goroutines write, the second while the buffer still holds nothing of the first. -/
example : ((run {} [.start 1 (.text [104, 105]), .head 1, .spill 1, .fill 1, .flush 1, .done 1, .start 2 (.text []), .head 2, .fill 2, .flush 2, .done 2]).map fun s => readAll 2 s.out) =
    some ([(1, [104, 105]), (1, [])], []) := by decide

/-- C133 fails: `Close` does not wait for a `Write` under way. All calls return, and the peer reads a message nobody sent: the header of the message, and the bytes of the close frame
as its payload; there is no close frame. -/
theorem C133_overlap_violated : ∃ (l : List Act) (s : St), run {} l = some s ∧ (∀ i, s.pc i = .idle) ∧ calls l = [.text [104, 105], .close [3, 232]] ∧
    (readAll 9 s.out).1 = [(1, [0x88, 2])] ∧ (readAll 9 s.out).2 = [3, 232, 104, 105] := by
  refine ⟨[.start 0 (.text [104, 105]), .head 0, .start 1 (.close [3, 232]), .head 1, .fill 1, .flush 1, .done 1, .fill 0, .flush 0, .done 0], ?_⟩
  simp only [run, step, St.goto]
  refine ⟨_, rfl, ?_, rfl, rfl, rfl⟩
  intro i
  by_cases h0 : i = 0 <;> by_cases h1 : i = 1 <;> simp [h0, h1]

end Verif.Ws.Writers

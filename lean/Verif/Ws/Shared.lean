import Verif.Api.Isolate
/-!
# Channels of one websocket object (http/ws/reflect.go L22-95, L118-128, http/ws/handler.go L114-136) (C184)

`Register` keeps the fields of the object that are not zero, and each channel that is opened gets a new object with these fields (`build`). That copies numbers, but of a pointer, map or slice only
the reference. Memory, references and what a method does are as in Api/Isolate.lean. A call is the program of the method with its argument, which is made for the call (reflect.go L74-81). The
calls of a channel are run one after the other, those of several connections at the same time, their statements in any order.
-/
set_option autoImplicit false
namespace Verif.Ws.Shared
open Verif.Api.Isolate

/-- The registered object: its fields, and the memory they lead to. http/ws/reflect.go L118-128. -/
structure Obj where
  val : Nat → Val
  mem : Nat → Val

/-- A channel: its object, with the call that is run or was run last; the calls that wait; what the calls before have seen; has a method panicked. http/ws/handler.go L120-134. -/
structure Chan where
  loc : Local
  queue : List Prog := []
  log : List (List Nat) := []
  dead : Bool := false

/-- What can happen: a channel is opened, a call arrives for it, it goes on. -/
inductive Act where
  | opened (i : Nat)
  | call (i : Nat) (P : Prog)
  | go (i : Nat)

/-- Memory, and the channels that were opened, by any numbers. -/
structure St where
  mem : Mem
  chan : Nat → Option Chan

/-- One channel changes. http/ws/handler.go L127. -/
def St.put (s : St) (M : Mem) (i : Nat) (c : Chan) : St := ⟨M, fun k => if k = i then some c else s.chan k⟩

/-- `build` (http/ws/reflect.go L23-28): the fields of the registered object. -/
def build (T : Obj) : Chan := { loc := { prog := fun _ => none, seen := [], obj := T.val, next := 0 } }

/-- The next statement follows a field that is no reference: a panic. http/ws/reflect.go L83. -/
def stuck (L : Local) : Bool :=
  match L.prog L.seen with
  | some (.load _ k) => (match L.obj k with | .num _ => true | .ref _ => false)
  | some (.store j _) => (match L.obj j with | .num _ => true | .ref _ => false)
  | _ => false

/-- A channel goes on: with the next statement, or the next call if there is none. A panic ends the connection. http/ws/reflect.go L70-95. -/
def next (i : Nat) (M : Mem) (c : Chan) : Mem × Chan :=
  if c.dead then (M, c)
  else if stuck c.loc then (M, { c with dead := true })
  else match c.loc.prog c.loc.seen with
    | some _ => ((step i M c.loc).1, { c with loc := (step i M c.loc).2 })
    | none => match c.queue with
      | [] => (M, c)
      | P :: q => (M, { c with loc := { c.loc with prog := P, seen := [] }, queue := q, log := c.log ++ [c.loc.seen] })

/-- One thing happens. http/ws/handler.go L120-134, http/ws/reflect.go L37-59. -/
def act (T : Obj) (s : St) : Act → St
  | .opened i => match s.chan i with
    | none => s.put s.mem i (build T)
    | some _ => s
  | .call i P => match s.chan i with
    | some c => s.put s.mem i { c with queue := c.queue ++ [P] }
    | none => s
  | .go i => match s.chan i with
    | some c => s.put (next i s.mem c).1 i (next i s.mem c).2
    | none => s

/-- Several things happen. -/
def run (T : Obj) : St → List Act → St
  | s, [] => s
  | s, a :: l => run T (act T s a) l

/-- Before anything happened. -/
def start (T : Obj) : St := ⟨fun | .tmpl k => T.mem k | .own _ _ => .num 0, fun _ => none⟩

/-! ### specification -/

/-- What happens to channel `i`. -/
def About (i : Nat) : Act → Bool
  | .opened k => k == i
  | .call k _ => k == i
  | .go k => k == i

/-- What the registered object leads to was there before. -/
def Closed (T : Obj) : Prop := (∀ j i k, T.val j ≠ .ref (.own i k)) ∧ ∀ c i k, T.mem c ≠ .ref (.own i k)

/-- No field of the registered object is a reference. -/
def Flat (T : Obj) : Prop := ∀ j, ∃ n, T.val j = .num n

/-- No method is about to write what the registered object leads to. -/
def QuietNow (s : St) : Prop := ∀ i c, s.chan i = some c → ∀ j k, c.loc.prog c.loc.seen = some (.store j k) → ∀ r, c.loc.obj j ≠ .ref (.tmpl r)

/-- And never is while this happens. -/
def Quiet (T : Obj) : St → List Act → Prop
  | _, [] => True
  | s, a :: l => QuietNow s ∧ Quiet T (act T s a) l

/-! ### lemmas -/

/-- Channels keep to what they can reach, and memory that is not used is zero. -/
structure Inv (T : Obj) (s : St) : Prop where
  keeps : ∀ i c, s.chan i = some c → Keeps i s.mem c.loc
  unused : ∀ i, s.chan i = none → ∀ k, s.mem (.own i k) = .num 0

/-- The memory is that of the registered object. -/
def Intact (T : Obj) (s : St) : Prop := ∀ k, s.mem (.tmpl k) = T.mem k

theorem next_cases (i : Nat) (M : Mem) (c : Chan) : ((next i M c).1 = M ∧ (next i M c).2.loc.obj = c.loc.obj) ∨
    ((next i M c).1 = (step i M c.loc).1 ∧ (next i M c).2.loc = (step i M c.loc).2) := by
  unfold next
  split
  · exact .inl ⟨rfl, rfl⟩
  · split
    · exact .inl ⟨rfl, rfl⟩
    · split
      · exact .inr ⟨rfl, rfl⟩
      · split
        · exact .inl ⟨rfl, rfl⟩
        · exact .inl ⟨rfl, rfl⟩

theorem keeps_next {i : Nat} {M : Mem} {c : Chan} (h : Keeps i M c.loc) : Keeps i (next i M c).1 (next i M c).2.loc := by
  rcases next_cases i M c with ⟨h1, h2⟩ | ⟨h1, h2⟩
  · rw [h1]; exact ⟨by rw [h2]; exact h.obj, h.own, h.tmpl⟩
  · rw [h1, h2]; exact keeps_step h

theorem others_next {i : Nat} {M : Mem} {c : Chan} (h : Keeps i M c.loc) : (∀ i' k, i' ≠ i → (next i M c).1 (.own i' k) = M (.own i' k)) ∧
    ((∀ j k, c.loc.prog c.loc.seen = some (.store j k) → ∀ r, c.loc.obj j ≠ .ref (.tmpl r)) → ∀ k, (next i M c).1 (.tmpl k) = M (.tmpl k)) := by
  rcases next_cases i M c with ⟨h1, _⟩ | ⟨h1, _⟩
  · rw [h1]; exact ⟨fun _ _ _ => rfl, fun _ _ => rfl⟩
  · rw [h1]; exact step_others h

theorem same_next {i : Nat} {M M' : Mem} {c : Chan} (hs : Same i M M') (h : Keeps i M c.loc) : (next i M c).2 = (next i M' c).2 ∧ Same i (next i M c).1 (next i M' c).1 := by
  obtain ⟨h1, h2⟩ := step_same hs h
  unfold next
  split
  · exact ⟨rfl, hs⟩
  · split
    · exact ⟨rfl, hs⟩
    · split
      · rw [h1]; exact ⟨rfl, h2⟩
      · split
        · exact ⟨rfl, hs⟩
        · exact ⟨rfl, hs⟩

theorem put_self (s : St) (M : Mem) (i : Nat) (c : Chan) : (s.put M i c).chan i = some c := if_pos rfl
theorem put_other (s : St) (M : Mem) (i k : Nat) (c : Chan) (h : k ≠ i) : (s.put M i c).chan k = s.chan k := if_neg h

theorem inv_act (T : Obj) (hT : Closed T) (s : St) (a : Act) (hi : Inv T s) (ht : Intact T s) (hq : QuietNow s) : Inv T (act T s a) ∧ Intact T (act T s a) := by
  have one : ∀ (i : Nat) (M : Mem) (c : Chan), (∀ i' k, i' ≠ i → M (.own i' k) = s.mem (.own i' k)) → (∀ k, M (.tmpl k) = s.mem (.tmpl k)) → Keeps i M c.loc → Inv T (s.put M i c) ∧ Intact T (s.put M i c) := by
    intro i M c h1 h2 h3
    refine ⟨⟨fun i' c' hc => ?_, fun i' hn k => ?_⟩, fun k => (h2 k).trans (ht k)⟩
    · by_cases he : i' = i
      · subst he
        rw [put_self] at hc
        cases hc
        exact h3
      · rw [put_other _ _ _ _ _ he] at hc
        have := hi.keeps i' c' hc
        exact ⟨this.obj, fun k => by show Near i' (M _); rw [h1 i' k he]; exact this.own k, fun k => by show Near i' (M _); rw [h2 k]; exact this.tmpl k⟩
    · by_cases he : i' = i
      · subst he; rw [put_self] at hn; exact nomatch hn
      · rw [put_other _ _ _ _ _ he] at hn
        exact (h1 i' k he).trans (hi.unused i' hn k)
  cases a with
  | opened i =>
    simp only [act]
    cases hc : s.chan i with
    | some c => exact ⟨hi, ht⟩
    | none =>
      refine one i s.mem _ (fun _ _ _ => rfl) (fun _ => rfl) ⟨fun j i' k h => absurd h (hT.1 j i' k), fun k => ?_, fun k => ?_⟩
      · rw [hi.unused i hc k]; exact near_num _ _
      · rw [ht k]; intro i' c h; exact absurd h (hT.2 k i' c)
  | call i P =>
    simp only [act]
    cases hc : s.chan i with
    | none => exact ⟨hi, ht⟩
    | some c => exact one i s.mem _ (fun _ _ _ => rfl) (fun _ => rfl) (hi.keeps i c hc)
  | go i =>
    simp only [act]
    cases hc : s.chan i with
    | none => exact ⟨hi, ht⟩
    | some c =>
      have hk := hi.keeps i c hc
      obtain ⟨o1, o2⟩ := others_next hk
      exact one i _ _ o1 (o2 (hq i c hc)) (keeps_next hk)

/-- Two states that are the same for channel `i`. -/
def Alike (i : Nat) (s s' : St) : Prop := s.chan i = s'.chan i ∧ Same i s.mem s'.mem

theorem alike_act (T : Obj) (i : Nat) (s s' : St) (a : Act) (hi : Inv T s) (ha : About i a = true) (h : Alike i s s') : Alike i (act T s a) (act T s' a) := by
  obtain ⟨h1, h2⟩ := h
  cases a with
  | opened k =>
    obtain rfl : k = i := by simpa [About] using ha
    simp only [act]
    rw [← h1]
    cases hc : s.chan k with
    | some c => exact ⟨h1, h2⟩
    | none => exact ⟨by rw [put_self, put_self], h2⟩
  | call k P =>
    obtain rfl : k = i := by simpa [About] using ha
    simp only [act]
    rw [← h1]
    cases hc : s.chan k with
    | none => exact ⟨h1, h2⟩
    | some c => exact ⟨by rw [put_self, put_self], h2⟩
  | go k =>
    obtain rfl : k = i := by simpa [About] using ha
    simp only [act]
    rw [← h1]
    cases hc : s.chan k with
    | none => exact ⟨h1, h2⟩
    | some c =>
      obtain ⟨e1, e2⟩ := same_next h2 (hi.keeps k c hc)
      exact ⟨by rw [put_self, put_self, e1], e2⟩

theorem other_act (T : Obj) (i : Nat) (s s' : St) (a : Act) (hi : Inv T s) (hq : QuietNow s) (ha : About i a = false) (h : Alike i s s') : Alike i (act T s a) s' := by
  obtain ⟨h1, h2⟩ := h
  cases a with
  | opened k =>
    have hk : i ≠ k := by intro e; subst e; simp [About] at ha
    simp only [act]
    cases hc : s.chan k with
    | some c => exact ⟨h1, h2⟩
    | none => exact ⟨by rw [put_other _ _ _ _ _ hk]; exact h1, h2⟩
  | call k P =>
    have hk : i ≠ k := by intro e; subst e; simp [About] at ha
    simp only [act]
    cases hc : s.chan k with
    | none => exact ⟨h1, h2⟩
    | some c => exact ⟨by rw [put_other _ _ _ _ _ hk]; exact h1, h2⟩
  | go k =>
    have hk : i ≠ k := by intro e; subst e; simp [About] at ha
    simp only [act]
    cases hc : s.chan k with
    | none => exact ⟨h1, h2⟩
    | some c =>
      obtain ⟨o1, o2⟩ := others_next (hi.keeps k c hc)
      refine ⟨by rw [put_other _ _ _ _ _ hk]; exact h1, fun r => ?_, fun r => ?_⟩
      · exact (o2 (hq k c hc) r).trans (h2.1 r)
      · exact (o1 i r hk).trans (h2.2 r)

theorem alike_run (T : Obj) (hT : Closed T) (i : Nat) : ∀ (l : List Act) (s s' : St), Inv T s → Intact T s → Quiet T s l → Alike i s s' → Alike i (run T s l) (run T s' (l.filter (About i))) ∧ Intact T (run T s l)
  | [], _, _, _, ht, _, h => ⟨h, ht⟩
  | a :: l, s, s', hi, ht, ⟨hq, hr⟩, h => by
    obtain ⟨j1, j2⟩ := inv_act T hT s a hi ht hq
    cases ha : About i a with
    | true =>
      rw [List.filter_cons_of_pos ha]
      exact alike_run T hT i l _ _ j1 j2 hr (alike_act T i s s' a hi ha h)
    | false =>
      rw [List.filter_cons_of_neg (by rw [ha]; decide)]
      exact alike_run T hT i l _ _ j1 j2 hr (other_act T i s s' a hi hq ha h)

theorem inv_start (T : Obj) : Inv T (start T) := ⟨fun _ _ h => (nomatch h), fun _ _ _ => rfl⟩

/-- No references to what the registered object leads to. -/
def FreeAll (s : St) : Prop := (∀ i c, s.chan i = some c → ∀ j, Free (c.loc.obj j)) ∧ ∀ i k, Free (s.mem (.own i k))

theorem quiet_free (s : St) (h : FreeAll s) : QuietNow s := fun i c hc j _ _ r => h.1 i c hc j r

theorem free_act (T : Obj) (hf : Flat T) (s : St) (a : Act) (hi : Inv T s) (h : FreeAll s) : FreeAll (act T s a) := by
  have one : ∀ (i : Nat) (M : Mem) (c : Chan), (∀ i' k, Free (M (.own i' k))) → (∀ j, Free (c.loc.obj j)) → FreeAll (s.put M i c) := by
    intro i M c h1 h2
    refine ⟨fun i' c' hc => ?_, h1⟩
    by_cases he : i' = i
    · subst he; rw [put_self] at hc; cases hc; exact h2
    · rw [put_other _ _ _ _ _ he] at hc; exact h.1 i' c' hc
  cases a with
  | opened i =>
    simp only [act]
    cases hc : s.chan i with
    | some c => exact h
    | none => exact one i _ _ h.2 fun j r e => by obtain ⟨n, hn⟩ := hf j; exact nomatch hn.symm.trans e
  | call i P =>
    simp only [act]
    cases hc : s.chan i with
    | none => exact h
    | some c => exact one i _ _ h.2 (h.1 i c hc)
  | go i =>
    simp only [act]
    cases hc : s.chan i with
    | none => exact h
    | some c =>
      have hk := hi.keeps i c hc
      obtain ⟨f1, f2⟩ := free_step hk (h.1 i c hc) (h.2 i)
      rcases next_cases i s.mem c with ⟨e1, e2⟩ | ⟨e1, e2⟩
      · exact one i _ _ (by rw [e1]; exact h.2) (by rw [e2]; exact h.1 i c hc)
      · refine one i _ _ (fun i' k => ?_) (by rw [e2]; exact f1)
        rw [e1]
        by_cases he : i' = i
        · subst he; exact f2 k
        · rw [(step_others hk).1 i' k he]; exact h.2 i' k

theorem flat_quiet (T : Obj) (hT : Closed T) (hf : Flat T) : ∀ (l : List Act) (s : St), Inv T s → Intact T s → FreeAll s → Quiet T s l
  | [], _, _, _, _ => trivial
  | a :: l, s, hi, ht, h => by
    obtain ⟨j1, j2⟩ := inv_act T hT s a hi ht (quiet_free s h)
    exact ⟨quiet_free s h, flat_quiet T hT hf l _ j1 j2 (free_act T hf s a hi h)⟩

/-! ### the theorems -/

/-- C184: as long as no method writes what the registered object leads to, a channel is as if there were no others: its object, and what its calls have seen. -/
theorem C184_alone_partial (T : Obj) (hT : Closed T) (l : List Act) (hq : Quiet T (start T) l) (i : Nat) :
    (run T (start T) l).chan i = (run T (start T) (l.filter (About i))).chan i ∧ ∀ k, (run T (start T) l).mem (.tmpl k) = T.mem k := by
  obtain ⟨h1, h2⟩ := alike_run T hT i l (start T) (start T) (inv_start T) (fun _ => rfl) hq ⟨rfl, fun _ => rfl, fun _ => rfl⟩
  exact ⟨h1.1, h2⟩

/-- C184: and if no field of the registered object is a reference, this is so whatever the methods do. -/
theorem C184_flat_partial (T : Obj) (hT : Closed T) (hf : Flat T) (l : List Act) (i : Nat) : (run T (start T) l).chan i = (run T (start T) (l.filter (About i))).chan i :=
  (C184_alone_partial T hT l (flat_quiet T hT hf l (start T) (inv_start T) (fun _ => rfl) ⟨fun _ _ h => (nomatch h), fun _ _ _ h => (nomatch h)⟩) i).1

/-- An object whose first field leads to a number. -/
def counter (n : Nat) : Obj := ⟨fun j => if j = 0 then .ref (.tmpl 0) else .num 0, fun _ => .num n⟩

/-- A method that writes its argument there; one that reads it; one that adds one. -/
def write (n : Nat) : Prog
  | [] => some (.set 1 n)
  | [_] => some (.store 0 1)
  | _ => none
def read : Prog
  | [] => some (.load 1 0)
  | _ => none
def inc : Prog
  | [] => some (.load 2 0)
  | [v] => some (.set 2 (v + 1))
  | [_, _] => some (.store 0 2)
  | _ => none

/-- C184 is violated: what one client sends can be seen by another one, on a connection and channel of its own: the same call there, alone, sees what was registered. -/
theorem C184_seen_violated (n secret : Nat) : ∃ l, ((run (counter n) (start (counter n)) l).chan 1).map (·.loc.seen) = some [secret] ∧
    ((run (counter n) (start (counter n)) (l.filter (About 1))).chan 1).map (·.loc.seen) = some [n] :=
  ⟨[.opened 0, .opened 1, .call 0 (write secret), .go 0, .go 0, .go 0, .call 1 read, .go 1, .go 1], rfl, rfl⟩

/-- C184 is violated: and of two clients that add one, at the same time, one may be lost. -/
theorem C184_lost_violated (n : Nat) : ∃ l l', (∀ i, i = 0 ∨ i = 1 → l.filter (About i) = l'.filter (About i)) ∧ (run (counter n) (start (counter n)) l).mem (.tmpl 0) = .num (n + 2) ∧
    (run (counter n) (start (counter n)) l').mem (.tmpl 0) = .num (n + 1) :=
  ⟨[.opened 0, .opened 1, .call 0 inc, .call 1 inc, .go 0, .go 0, .go 0, .go 0, .go 1, .go 1, .go 1, .go 1],
   [.opened 0, .opened 1, .call 0 inc, .call 1 inc, .go 0, .go 0, .go 1, .go 1, .go 0, .go 1, .go 0, .go 1], fun i hi => by rcases hi with rfl | rfl <;> rfl, rfl, rfl⟩

/-! ### examples -/

/-- Calls of one channel are run one after the other, on one object; a method that follows what is no reference ends the connection. -/
example : ((run (counter 5) (start (counter 5)) [.opened 0, .call 0 inc, .call 0 read, .go 0, .go 0, .go 0, .go 0, .go 0, .go 0, .go 0]).chan 0).map (fun c => (c.log, c.loc.seen, c.dead)) =
    some ([[], [5, 0, 0]], [6], false) ∧
    ((run (counter 5) (start (counter 5)) [.opened 0, .call 0 (fun _ => some (.load 0 1)), .call 0 read, .go 0, .go 0, .go 0, .go 0]).chan 0).map (fun c => (c.loc.seen, c.dead)) = some ([], true) := ⟨rfl, rfl⟩

/-- So does one that writes to where nothing leads. -/
example : ((run (counter 5) (start (counter 5)) [.opened 0, .call 0 (fun _ => some (.store 1 0)), .call 0 read, .go 0, .go 0, .go 0, .go 0]).chan 0).map (fun c => (c.queue.length, c.loc.seen, c.dead)) =
    some (1, [], true) := rfl

/-- An object without references, and methods that write to what they have made themselves. -/
example : Flat ⟨fun j => .num j, fun _ => .num 0⟩ ∧ Closed ⟨fun j => .num j, fun _ => .num 0⟩ :=
  ⟨fun j => ⟨j, rfl⟩, fun _ _ _ h => (nomatch h), fun _ _ _ h => (nomatch h)⟩

/-- Reading what the registered object leads to is fine. -/
example (n : Nat) : Quiet (counter n) (start (counter n)) [.opened 0, .call 0 read, .go 0, .go 0] := by
  refine ⟨fun _ _ h => (nomatch h), ?_, ?_, ?_, trivial⟩ <;> intro i c hc j k hp r <;> by_cases hi : i = 0
  all_goals first
    | (subst hi; cases hc; exact nomatch hp)
    | (simp [act, St.put, start, hi] at hc)

end Verif.Ws.Shared

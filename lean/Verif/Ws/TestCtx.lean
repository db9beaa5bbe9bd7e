import Verif.Ws.RpcProps
/-!
# Contexts of the websocket test client (C158)

`TestClient.NewContext` (http/ws/test.go L139-159) makes a `ws.C` whose replies end up in a channel of Go, the outbox. Any number of goroutines reply in any number of such contexts, others
take from the outboxes, cancel contexts, and close the connection. A frame is a value of any type. Replies are numbered in the order they begin; ids of channels are taken to be fresh
(`uuid.NewString`). Accesses to `closed` and to the map `byChan` are not synchronised; they are single steps here, and the map is looked at in `Race` below.
-/
set_option autoImplicit false
namespace Verif.Ws.TestCtx
open Verif.Strconv Verif.Enc

variable {F : Type}

/-- An outbox (test.go L142): its capacity, what is in it, and whether the context it belongs to was cancelled (L151). -/
structure Box (F : Type) where
  size : Nat
  buf : List F := []
  cancelled : Bool := false

/-- A reply: not yet returned, returned nil, or an error. channel.go L79-85, test.go L43-57, L147-154. -/
inductive Pc where
  | waiting
  | ok
  | failed
deriving DecidableEq

/-- `C.Reply` (channel.go L79-85) in a context. -/
structure Call (F : Type) where
  box : Nat
  frame : F
  pc : Pc

/-- The connection: contexts, replies, whether it was closed (test.go L18-21). -/
structure St (F : Type) where
  boxes : List (Box F) := []
  calls : List (Call F) := []
  closed : Bool := false

/-- What can happen. -/
inductive Act (F : Type) where
  /-- `NewContext` (L141-146) -/
  | new (size : Nat)
  /-- a reply begins (channel.go L79-85, test.go L43-56) -/
  | reply (k : Nat) (f : F)
  /-- the frame of a reply is put into the outbox (L149-150) -/
  | put (i : Nat)
  /-- the frame of a reply is handed to a receiver that waits, if the outbox has no room at all (L149-150) -/
  | hand (i : Nat)
  /-- a reply ends because its context was cancelled (L151-152) -/
  | giveUp (i : Nat)
  /-- a frame is taken from the outbox -/
  | take (k : Nat)
  | cancel (k : Nat)
  /-- the connection is closed (L25-28) -/
  | close

/-- What can be seen: a reply returned, nil or not; a frame was received. -/
inductive Obs (F : Type) where
  | returned (i : Nat) (k : Nat) (f : F) (ok : Bool)
  | got (k : Nat) (f : F)

/-- The reply `i` returned. -/
def St.done (s : St F) (i : Nat) (c : Call F) (p : Pc) : St F := { s with calls := s.calls.set i { c with pc := p } }

/-- One step: test.go L25-28, L43-57, L141-159. -/
def step (s : St F) : Act F → Option (St F × List (Obs F))
  | .new n => some ({ s with boxes := s.boxes ++ [{ size := n }] }, [])
  | .reply k f =>
    match s.boxes[k]? with
    | none => none
    | some _ =>
      if s.closed then some ({ s with calls := s.calls ++ [⟨k, f, .failed⟩] }, [.returned s.calls.length k f false])
      else some ({ s with calls := s.calls ++ [⟨k, f, .waiting⟩] }, [])
  | .put i =>
    match s.calls[i]? with
    | some ⟨k, f, .waiting⟩ =>
      match s.boxes[k]? with
      | some b => if b.buf.length < b.size then some ({ (s.done i ⟨k, f, .waiting⟩ .ok) with boxes := s.boxes.set k { b with buf := b.buf ++ [f] } }, [.returned i k f true]) else none
      | none => none
    | _ => none
  | .hand i =>
    match s.calls[i]? with
    | some ⟨k, f, .waiting⟩ =>
      match s.boxes[k]? with
      | some b => if b.size = 0 then some (s.done i ⟨k, f, .waiting⟩ .ok, [.returned i k f true, .got k f]) else none
      | none => none
    | _ => none
  | .giveUp i =>
    match s.calls[i]? with
    | some ⟨k, f, .waiting⟩ =>
      match s.boxes[k]? with
      | some b => if b.cancelled then some (s.done i ⟨k, f, .waiting⟩ .failed, [.returned i k f false]) else none
      | none => none
    | _ => none
  | .take k =>
    match s.boxes[k]? with
    | some b => match b.buf with
      | f :: l => some ({ s with boxes := s.boxes.set k { b with buf := l } }, [.got k f])
      | [] => none
    | none => none
  | .cancel k =>
    match s.boxes[k]? with
    | some b => some ({ s with boxes := s.boxes.set k { b with cancelled := true } }, [])
    | none => none
  | .close => some ({ s with closed := true }, [])

/-- Executions with what can be seen. -/
inductive Exec (s0 : St F) : List (Act F) → List (Obs F) → St F → Prop where
  | nil : Exec s0 [] [] s0
  | snoc {as : List (Act F)} {tr es : List (Obs F)} {s s' : St F} {a : Act F} : Exec s0 as tr s → step s a = some (s', es) → Exec s0 (as ++ [a]) (tr ++ es) s'

/-! ### specification, in terms of what can be seen -/

/-- The frames received from outbox `k`. -/
def received (k : Nat) (tr : List (Obs F)) : List F := tr.filterMap fun | .got k' f => if k' = k then some f else none | _ => none

/-- The frames of the replies in context `k` that returned nil, in the order they returned. -/
def sent (k : Nat) (tr : List (Obs F)) : List F := tr.filterMap fun | .returned _ k' f true => if k' = k then some f else none | _ => none

/-- The replies that returned, in the order they did. -/
def returns (tr : List (Obs F)) : List (Nat × Bool) := tr.filterMap fun | .returned i _ _ ok => some (i, ok) | _ => none

theorem received_append (k : Nat) (a b : List (Obs F)) : received k (a ++ b) = received k a ++ received k b := List.filterMap_append
theorem sent_append (k : Nat) (a b : List (Obs F)) : sent k (a ++ b) = sent k a ++ sent k b := List.filterMap_append
theorem returns_append (a b : List (Obs F)) : returns (a ++ b) = returns a ++ returns b := List.filterMap_append

/-- What holds in every execution. -/
structure Inv (tr : List (Obs F)) (s : St F) : Prop where
  fifo : ∀ k, received k tr ++ (s.boxes[k]?.elim [] (·.buf)) = sent k tr
  room : ∀ (k : Nat) (b : Box F), s.boxes[k]? = some b → b.buf.length ≤ b.size
  once : ((returns tr).map (·.1)).Nodup
  pc : ∀ (i : Nat), (∀ c : Call F, s.calls[i]? = some c → (c.pc = .ok ↔ (i, true) ∈ returns tr) ∧ (c.pc = .failed ↔ (i, false) ∈ returns tr)) ∧
    (s.calls[i]? = none → ∀ ok, (i, ok) ∉ returns tr)

theorem pc_of {tr : List (Obs F)} {s : St F} (h : Inv tr s) {i : Nat} {k : Nat} {f : F} (hc : s.calls[i]? = some ⟨k, f, .waiting⟩) : ∀ ok, (i, ok) ∉ returns tr := by
  intro ok hm
  obtain ⟨h1, h2⟩ := (h.pc i).1 _ hc
  cases ok with
  | true => exact nomatch h1.2 hm
  | false => exact nomatch h2.2 hm

theorem returned_spec {tr : List (Obs F)} {s : St F} (h : Inv tr s) {i k : Nat} {f : F} (hc : s.calls[i]? = some ⟨k, f, .waiting⟩) (ok : Bool) (p : Pc)
    (hp : p = if ok then .ok else .failed) (es : List (Obs F)) (he : returns es = [(i, ok)]) :
    ((returns (tr ++ es)).map (·.1)).Nodup ∧
    ∀ (j : Nat), (∀ c : Call F, (s.calls.set i ⟨k, f, p⟩)[j]? = some c → (c.pc = .ok ↔ (j, true) ∈ returns (tr ++ es)) ∧ (c.pc = .failed ↔ (j, false) ∈ returns (tr ++ es))) ∧
      ((s.calls.set i ⟨k, f, p⟩)[j]? = none → ∀ ok, (j, ok) ∉ returns (tr ++ es)) := by
  have hn := pc_of h hc
  rw [returns_append, he]
  refine ⟨?_, fun j => ⟨?_, ?_⟩⟩
  · rw [List.map_append, List.nodup_append]
    refine ⟨h.once, by simp, ?_⟩
    intro a ha b hb
    simp only [List.map_cons, List.map_nil, List.mem_singleton] at hb
    subst hb
    rintro rfl
    obtain ⟨⟨x, y⟩, hx, rfl⟩ := List.mem_map.1 ha
    exact hn y hx
  · intro c hcc
    by_cases hij : i = j
    · subst hij
      have hl : i < s.calls.length := (List.getElem?_eq_some_iff.1 hc).1
      rw [List.getElem?_set_self hl] at hcc
      cases hcc
      subst hp
      cases ok <;> simp [hn]
    · rw [List.getElem?_set_ne hij] at hcc
      have := (h.pc j).1 c hcc
      have hji : j ≠ i := Ne.symm hij
      simp [this, hji]
  · intro hcc ok'
    by_cases hij : i = j
    · subst hij
      have hl : i < s.calls.length := (List.getElem?_eq_some_iff.1 hc).1
      rw [List.getElem?_set_self hl] at hcc
      exact nomatch hcc
    · rw [List.getElem?_set_ne hij] at hcc
      have := (h.pc j).2 hcc ok'
      have hji : j ≠ i := Ne.symm hij
      simp [this, hji]

theorem boxes_set {s : St F} {k : Nat} {b b' : Box F} (hb : s.boxes[k]? = some b) (j : Nat) : (s.boxes.set k b')[j]? = if j = k then some b' else s.boxes[j]? := by
  by_cases h : j = k
  · subst h
    rw [if_pos rfl, List.getElem?_set_self (List.getElem?_eq_some_iff.1 hb).1]
  · rw [if_neg h, List.getElem?_set_ne (Ne.symm h)]

theorem step_inv {tr es : List (Obs F)} {s s' : St F} (h : Inv tr s) : ∀ {a : Act F}, step s a = some (s', es) → Inv (tr ++ es) s'
  | .new n, hs => by
    simp only [step] at hs
    cases hs
    rw [List.append_nil]
    refine ⟨?_, ?_, h.once, h.pc⟩
    · intro k
      rw [← h.fifo k]
      congr 1
      by_cases hk : k < s.boxes.length
      · rw [List.getElem?_append_left hk]
      · rw [List.getElem?_append_right (by omega), List.getElem?_eq_none (l := s.boxes) (by omega)]
        cases hkk : k - s.boxes.length with
        | zero => rfl
        | succ m => rfl
    · intro k b hb
      by_cases hk : k < s.boxes.length
      · rw [List.getElem?_append_left hk] at hb
        exact h.room k b hb
      · rw [List.getElem?_append_right (by omega)] at hb
        cases hkk : k - s.boxes.length with
        | zero => rw [hkk] at hb; cases hb; exact Nat.zero_le _
        | succ m => rw [hkk] at hb; exact nomatch hb
  | .reply k f, hs => by
    simp only [step] at hs
    cases hb : s.boxes[k]? with
    | none => rw [hb] at hs; exact nomatch hs
    | some b =>
      rw [hb] at hs
      simp only at hs
      have hnone : ∀ ok, (s.calls.length, ok) ∉ returns tr := (h.pc s.calls.length).2 (List.getElem?_eq_none (Nat.le_refl _))
      split at hs
      · cases hs
        refine ⟨?_, h.room, ?_, ?_⟩
        · intro k'
          rw [received_append, sent_append]
          simpa [received, sent] using h.fifo k'
        · rw [returns_append, List.map_append, List.nodup_append]
          refine ⟨h.once, by simp [returns], ?_⟩
          intro a ha b hb
          simp only [returns, List.filterMap_cons, List.filterMap_nil, List.map_cons, List.map_nil, List.mem_singleton] at hb
          subst hb
          rintro rfl
          obtain ⟨⟨x, y⟩, hx, rfl⟩ := List.mem_map.1 ha
          exact hnone y hx
        · intro j
          rw [returns_append]
          have he : returns [Obs.returned s.calls.length k f false] = [(s.calls.length, false)] := rfl
          rw [he]
          by_cases hj : j < s.calls.length
          · simp only [List.getElem?_append_left hj]
            have hne : j ≠ s.calls.length := by omega
            have := h.pc j
            simpa [hne] using this
          · rw [List.getElem?_append_right (by omega)]
            by_cases hj2 : j = s.calls.length
            · subst hj2
              simp [hnone]
            · have : j - s.calls.length ≠ 0 := by omega
              obtain ⟨m, hm⟩ := Nat.exists_eq_succ_of_ne_zero this
              rw [hm]
              have := (h.pc j).2 (List.getElem?_eq_none (by omega))
              simp [hj2, this]
      · cases hs
        rw [List.append_nil]
        refine ⟨h.fifo, h.room, h.once, ?_⟩
        intro j
        by_cases hj : j < s.calls.length
        · simp only [List.getElem?_append_left hj]
          exact h.pc j
        · rw [List.getElem?_append_right (by omega)]
          have hn := (h.pc j).2 (List.getElem?_eq_none (by omega))
          by_cases hj2 : j = s.calls.length
          · subst hj2
            simp [hn]
          · have : j - s.calls.length ≠ 0 := by omega
            obtain ⟨m, hm⟩ := Nat.exists_eq_succ_of_ne_zero this
            rw [hm]
            simp [hn]
  | .put i, hs => by
    simp only [step] at hs
    split at hs
    · next k f hc =>
      split at hs
      · next b hb =>
        split at hs
        · next hlt =>
          cases hs
          obtain ⟨r1, r2⟩ := returned_spec h hc true .ok rfl [.returned i k f true] rfl
          refine ⟨?_, ?_, r1, r2⟩
          · intro k'
            rw [received_append, sent_append, boxes_set hb]
            have hf := h.fifo k'
            by_cases hk : k' = k
            · subst hk
              rw [hb] at hf
              simp only [Option.elim] at hf
              rw [← hf]
              simp [received, sent]
            · rw [if_neg hk, ← hf]
              have : k ≠ k' := Ne.symm hk
              simp [received, sent, this]
          · intro k' b' hb'
            rw [boxes_set hb] at hb'
            split at hb'
            · cases hb'
              simp only [List.length_append, List.length_singleton]
              omega
            · exact h.room k' b' hb'
        · exact nomatch hs
      · exact nomatch hs
    · exact nomatch hs
  | .hand i, hs => by
    simp only [step] at hs
    split at hs
    · next k f hc =>
      split at hs
      · next b hb =>
        split at hs
        · next hz =>
          cases hs
          obtain ⟨r1, r2⟩ := returned_spec h hc true .ok rfl [.returned i k f true, .got k f] rfl
          refine ⟨?_, h.room, r1, r2⟩
          intro k'
          have hf := h.fifo k'
          rw [received_append, sent_append]
          simp only [St.done]
          by_cases hk : k' = k
          · subst hk
            have := h.room k' b hb
            have hbuf : b.buf = [] := List.eq_nil_of_length_eq_zero (by omega)
            rw [hb] at hf ⊢
            simp only [Option.elim, hbuf, List.append_nil] at hf ⊢
            rw [hf]
            simp [received, sent]
          · rw [← hf]
            have : k ≠ k' := Ne.symm hk
            simp [received, sent, this]
        · exact nomatch hs
      · exact nomatch hs
    · exact nomatch hs
  | .giveUp i, hs => by
    simp only [step] at hs
    split at hs
    · next k f hc =>
      split at hs
      · next b hb =>
        split at hs
        · cases hs
          obtain ⟨r1, r2⟩ := returned_spec h hc false .failed rfl [.returned i k f false] rfl
          refine ⟨?_, h.room, r1, r2⟩
          intro k'
          rw [received_append, sent_append]
          simpa [received, sent, St.done] using h.fifo k'
        · exact nomatch hs
      · exact nomatch hs
    · exact nomatch hs
  | .take k, hs => by
    simp only [step] at hs
    split at hs
    · next b hb =>
      split at hs
      · next f l hl =>
        cases hs
        have e0 : returns [Obs.got k f] = [] := rfl
        refine ⟨?_, ?_, ?_, ?_⟩
        · intro k'
          rw [received_append, sent_append, boxes_set hb]
          have hf := h.fifo k'
          by_cases hk : k' = k
          · subst hk
            rw [hb] at hf
            simp only [Option.elim, hl] at hf
            rw [← hf]
            simp [received, sent]
          · rw [if_neg hk, ← hf]
            have : k ≠ k' := Ne.symm hk
            simp [received, sent, this]
        · intro k' b' hb'
          rw [boxes_set hb] at hb'
          split at hb'
          · cases hb'
            have := h.room k b hb
            rw [hl] at this
            simp only [List.length_cons] at this
            show l.length ≤ b.size
            omega
          · exact h.room k' b' hb'
        · rw [returns_append, e0, List.append_nil]; exact h.once
        · rw [returns_append, e0, List.append_nil]; exact h.pc
      · exact nomatch hs
    · exact nomatch hs
  | .cancel k, hs => by
    simp only [step] at hs
    split at hs
    · next b hb =>
      cases hs
      rw [List.append_nil]
      refine ⟨?_, ?_, h.once, h.pc⟩
      · intro k'
        rw [boxes_set hb, ← h.fifo k']
        congr 1
        split
        · next hk => subst hk; rw [hb]; rfl
        · rfl
      · intro k' b' hb'
        rw [boxes_set hb] at hb'
        split at hb'
        · cases hb'; exact h.room k b hb
        · exact h.room k' b' hb'
    · exact nomatch hs
  | .close, hs => by
    simp only [step] at hs
    cases hs
    rw [List.append_nil]
    exact ⟨h.fifo, h.room, h.once, h.pc⟩

theorem inv {as : List (Act F)} {tr : List (Obs F)} {s : St F} (h : Exec {} as tr s) : Inv tr s := by
  induction h with
  | nil => exact ⟨fun _ => rfl, fun _ _ h => (nomatch h), List.nodup_nil, fun i => ⟨fun _ h => (nomatch h), fun _ _ h => (nomatch h)⟩⟩
  | snoc _ hs ih => exact step_inv ih hs

/-- C158: whatever happens, what was received from an outbox, and what is still in it, are the frames of the replies in its context that returned nil, in the order they did: none is lost,
doubled, or in the outbox of another context; no more are in it than its size. A reply returns at most once. -/
theorem C158_fifo (as : List (Act F)) (tr : List (Obs F)) (s : St F) (h : Exec {} as tr s) :
    (∀ (k : Nat) (b : Box F), s.boxes[k]? = some b → received k tr ++ b.buf = sent k tr ∧ b.buf.length ≤ b.size) ∧ ((returns tr).map (·.1)).Nodup := by
  have := inv h
  refine ⟨fun k b hb => ⟨?_, this.room k b hb⟩, this.once⟩
  have hf := this.fifo k
  rw [hb] at hf
  exact hf

/-- C158: a reply that begins after the connection was closed fails at once, and nothing is put into an outbox for it. -/
theorem C158_closed (s s' : St F) (k : Nat) (f : F) (es : List (Obs F)) (hc : s.closed = true) (h : step s (.reply k f) = some (s', es)) :
    es = [.returned s.calls.length k f false] ∧ s'.boxes = s.boxes ∧ s'.closed = true := by
  simp only [step, hc, if_true] at h
  split at h
  · exact nomatch h
  · cases h; exact ⟨rfl, rfl, rfl⟩

/-- C158: a reply that waits can return as soon as there is room in the outbox, or a receiver if its size is 0, or its context was cancelled.
What is missing: closing the connection does not end it, see `C158_close_violated`. -/
theorem C158_ends_partial (s : St F) (i k : Nat) (f : F) (b : Box F) (hc : s.calls[i]? = some ⟨k, f, .waiting⟩) (hb : s.boxes[k]? = some b)
    (h : b.buf.length < b.size ∨ b.size = 0 ∨ b.cancelled = true) :
    ∃ a s' es ok, (a = .put i ∨ a = .hand i ∨ a = .giveUp i) ∧ step s a = some (s', es) ∧ (i, ok) ∈ returns es := by
  rcases h with h | h | h
  · refine ⟨.put i, _, _, true, .inl rfl, by simp only [step, hc, hb, if_pos h]; rfl, by simp [returns]⟩
  · refine ⟨.hand i, _, _, true, .inr (.inl rfl), by simp only [step, hc, hb, if_pos h]; rfl, by simp [returns]⟩
  · refine ⟨.giveUp i, _, _, false, .inr (.inr rfl), by simp only [step, hc, hb, if_pos h]; rfl, by simp [returns]⟩

/-- Steps that let reply `i`, in context `k`, return: someone receives, or the context is cancelled. -/
def frees (i k : Nat) : Act F → Bool
  | .take k' => decide (k' = k)
  | .cancel k' => decide (k' = k)
  | .hand j => decide (j = i)
  | _ => false

/-- C158 (negation): a reply that waits because its outbox is full goes on waiting, whatever else happens and although the connection is closed, until someone takes from the outbox or the
context is cancelled. -/
theorem C158_close_violated (s : St F) (i k : Nat) (f : F) (b : Box F) (hc : s.calls[i]? = some ⟨k, f, .waiting⟩) (hb : s.boxes[k]? = some b)
    (hfull : b.size ≤ b.buf.length) (hnc : b.cancelled = false) (as : List (Act F)) (tr : List (Obs F)) (s' : St F) (h : Exec s as tr s') (hn : ∀ a ∈ as, frees i k a = false) :
    s'.calls[i]? = some ⟨k, f, .waiting⟩ ∧ (∀ ok, (i, ok) ∉ returns tr) ∧ (.close ∈ as → s'.closed = true) := by
  have key : s'.calls[i]? = some ⟨k, f, .waiting⟩ ∧ (∀ ok, (i, ok) ∉ returns tr) ∧ (.close ∈ as ∨ s.closed = true → s'.closed = true) ∧
      ∃ b', s'.boxes[k]? = some b' ∧ b'.size ≤ b'.buf.length ∧ b'.cancelled = false := by
    induction h with
    | nil => exact ⟨hc, fun _ h => (nomatch h), fun h => h.elim (fun h => (nomatch h)) id, b, hb, hfull, hnc⟩
    | @snoc as tr es t t' a _ hs ih =>
      obtain ⟨i1, i2, i3, b', i4, i5, i6⟩ := ih fun a ha => hn a (List.mem_append_left _ ha)
      have hna := hn a (by simp)
      have hlt : i < t.calls.length := (List.getElem?_eq_some_iff.1 i1).1
      rw [returns_append]
      have keepc : ∀ (j : Nat) (c : Call F), j ≠ i → (t.calls.set j c)[i]? = some ⟨k, f, .waiting⟩ := by
        intro j c hj; rw [List.getElem?_set_ne hj]; exact i1
      have clo : t'.closed = t.closed → a ≠ .close → (Act.close ∈ as ++ [a] ∨ s.closed = true → t'.closed = true) := by
        intro h1 h2 h3
        rw [h1]
        refine i3 ?_
        rcases h3 with h3 | h3
        · rcases List.mem_append.1 h3 with h3 | h3
          · exact .inl h3
          · exact absurd (List.mem_singleton.1 h3).symm h2
        · exact .inr h3
      cases a with
      | new n =>
        simp only [step] at hs
        cases hs
        refine ⟨i1, by simpa [returns] using i2, clo rfl (by simp), b', ?_, i5, i6⟩
        rw [List.getElem?_append_left (List.getElem?_eq_some_iff.1 i4).1]; exact i4
      | reply k' f' =>
        simp only [step] at hs
        split at hs
        · exact nomatch hs
        · split at hs
          · cases hs
            refine ⟨by rw [List.getElem?_append_left hlt]; exact i1, ?_, clo rfl (by simp), b', i4, i5, i6⟩
            intro ok hm
            rcases List.mem_append.1 hm with hm | hm
            · exact i2 ok hm
            · simp only [returns, List.filterMap_cons, List.filterMap_nil, List.mem_singleton, Prod.mk.injEq] at hm
              omega
          · cases hs
            exact ⟨by rw [List.getElem?_append_left hlt]; exact i1, by simpa [returns] using i2, clo rfl (by simp), b', i4, i5, i6⟩
      | put j =>
        simp only [step] at hs
        split at hs
        · next k' f' hcj =>
          split at hs
          · next bj hbj =>
            split at hs
            · next hltb =>
              cases hs
              have hji : j ≠ i := by
                rintro rfl
                rw [i1] at hcj
                cases hcj
                rw [i4] at hbj
                cases hbj
                omega
              have hkk : k ≠ k' := by
                rintro rfl
                rw [i4] at hbj
                cases hbj
                omega
              refine ⟨keepc j _ hji, ?_, clo rfl (by simp), b', ?_, i5, i6⟩
              · intro ok hm
                rcases List.mem_append.1 hm with hm | hm
                · exact i2 ok hm
                · simp only [returns, List.filterMap_cons, List.filterMap_nil, List.mem_singleton, Prod.mk.injEq] at hm
                  exact hji hm.1.symm
              · rw [boxes_set hbj, if_neg hkk]; exact i4
            · exact nomatch hs
          · exact nomatch hs
        · exact nomatch hs
      | hand j =>
        have hji : j ≠ i := by
          rintro rfl
          simp [frees] at hna
        simp only [step] at hs
        split at hs
        · next k' f' hcj =>
          split at hs
          · split at hs
            · cases hs
              refine ⟨keepc j _ hji, ?_, clo rfl (by simp), b', i4, i5, i6⟩
              intro ok hm
              rcases List.mem_append.1 hm with hm | hm
              · exact i2 ok hm
              · simp only [returns, List.filterMap_cons, List.filterMap_nil, List.mem_singleton, Prod.mk.injEq] at hm
                exact hji hm.1.symm
            · exact nomatch hs
          · exact nomatch hs
        · exact nomatch hs
      | giveUp j =>
        simp only [step] at hs
        split at hs
        · next k' f' hcj =>
          split at hs
          · next bj hbj =>
            split at hs
            · next hcan =>
              cases hs
              have hji : j ≠ i := by
                rintro rfl
                rw [i1] at hcj
                cases hcj
                rw [i4] at hbj
                cases hbj
                rw [i6] at hcan
                exact nomatch hcan
              refine ⟨keepc j _ hji, ?_, clo rfl (by simp), b', i4, i5, i6⟩
              intro ok hm
              rcases List.mem_append.1 hm with hm | hm
              · exact i2 ok hm
              · simp only [returns, List.filterMap_cons, List.filterMap_nil, List.mem_singleton, Prod.mk.injEq] at hm
                exact hji hm.1.symm
            · exact nomatch hs
          · exact nomatch hs
        · exact nomatch hs
      | take k' =>
        have hk : k ≠ k' := by
          rintro rfl
          simp [frees] at hna
        simp only [step] at hs
        split at hs
        · next bj hbj =>
          split at hs
          · cases hs
            exact ⟨i1, by simpa [returns] using i2, clo rfl (by simp), b', by rw [boxes_set hbj, if_neg hk]; exact i4, i5, i6⟩
          · exact nomatch hs
        · exact nomatch hs
      | cancel k' =>
        have hk : k ≠ k' := by
          rintro rfl
          simp [frees] at hna
        simp only [step] at hs
        split at hs
        · next bj hbj =>
          cases hs
          exact ⟨i1, by simpa [returns] using i2, clo rfl (by simp), b', by rw [boxes_set hbj, if_neg hk]; exact i4, i5, i6⟩
        · exact nomatch hs
      | close =>
        simp only [step] at hs
        cases hs
        exact ⟨i1, by simpa [returns] using i2, fun _ => rfl, b', i4, i5, i6⟩
  exact ⟨key.1, key.2.1, fun h => key.2.2.1 (.inl h)⟩

/-! ### the server does not know the channel -/

/-- The channels of a connection are those opened on it. -/
theorem chans_opened {S N : Type} (reg : Registry S N) (id : Str) : ∀ (fs : List (Frame N)) (c : Conn S N), lookupKey id c.chans = none →
    (∀ f ∈ fs, f.type = lit "new" ∨ f.type = lit "open" → f.channel ≠ id) → lookupKey id (runFrames reg c fs).1.chans = none
  | [], c, h, _ => h
  | f :: fs, c, h, hf => by
    have h1 : lookupKey id (onFrame reg c f).1.chans = none := by
      have hst : ∀ (c : Conn S N) (ch : Chan S N), f.channel ≠ id → lookupKey id c.chans = none → lookupKey id (c.store f.channel ch).chans = none := by
        intro c ch hne hl
        rw [lookup_store, if_neg (Ne.symm hne)]; exact hl
      have hap : ∀ (c : Conn S N) (x : Str) (l : List (Ws.Act N)), (c.acts x l).chans = c.chans := by
        intro c x l; rw [Conn.acts_eq]; rfl
      have hse : ∀ (c : Conn S N) (g : Frame N), (c.send g).chans = c.chans := by
        intro c g; unfold Conn.send; split <;> rfl
      unfold onFrame
      split
      · exact h
      · split
        · next ht =>
          have hne := hf f (by simp) ht
          split
          · unfold openChan
            simp only
            split
            · exact hst _ _ hne h
            · split
              · exact hst _ _ hne (hst _ _ hne h)
              · split
                · exact hst _ _ hne (by rw [hap]; exact hst _ _ hne h)
                · simp only; rw [hap]; exact hst _ _ hne h
                · simp only; rw [hap]; exact hst _ _ hne h
          · exact h
        · next ht =>
          split
          · next ch hch =>
            have hne : f.channel ≠ id := by rintro rfl; rw [h] at hch; exact nomatch hch
            unfold onData
            split
            · exact h
            · split
              · exact h
              · simp only
                split
                · simp only [hse]; exact hst _ _ hne (by rw [hap]; exact h)
                · simp only [hse]; exact hst _ _ hne (by rw [hap]; exact h)
                · exact hst _ _ hne (by rw [hap]; exact h)
          · exact h
    unfold runFrames
    split
    · next c' hok =>
      rw [hok] at h1
      exact chans_opened reg id fs c' h1 fun g hg => hf g (List.mem_cons_of_mem _ hg)
    · next r hr => exact h1

theorem runFrames_append {S N : Type} (reg : Registry S N) : ∀ (fs gs : List (Frame N)) (c : Conn S N), (runFrames reg c fs).2 = .ok →
    runFrames reg c (fs ++ gs) = runFrames reg (runFrames reg c fs).1 gs
  | [], _, _, _ => rfl
  | f :: fs, gs, c, h => by
    simp only [List.cons_append]
    rw [runFrames] at h ⊢
    split
    · next c' hok =>
      rw [hok] at h
      have : runFrames reg c (f :: fs) = runFrames reg c' fs := by rw [runFrames, hok]
      rw [this]
      exact runFrames_append reg fs gs c' h
    · next r hr =>
      exfalso
      split at h
      · next c' hok => exact hr c' hok
      · exact hr (onFrame reg c f).1 (by rw [← h])

/-- C158 (negation): `NewContext` does not open its channel at the server, as its documentation says: whatever frames were handled before, none of which opens that channel, a frame sent to
it is an error, which ends the connection with all its channels: nothing after it is handled. -/
theorem C158_unopened_violated {S N : Type} (reg : Registry S N) (id : Str) (fs : List (Frame N)) (hok : (runFrames reg {} fs).2 = .ok)
    (hf : ∀ f ∈ fs, f.type = lit "new" ∨ f.type = lit "open" → f.channel ≠ id) (f : Frame N) (hid : f.channel = id)
    (ht : f.type ≠ lit "new" ∧ f.type ≠ lit "open" ∧ f.type ≠ lit "close") (rest : List (Frame N)) :
    runFrames reg {} (fs ++ f :: rest) = ((runFrames reg {} fs).1, .err) := by
  have h := chans_opened reg id fs {} rfl hf
  rw [runFrames_append reg fs _ _ hok, runFrames, C61_unknown reg _ f ht.2.2 (by rw [if_neg (by simp [ht])]; exact .inl (hid ▸ h))]

/-! ### the map of channels -/

namespace Race

/-- What a test does: register a channel in the map of the client (`Open`, `NewContext`, test.go L95, L147), send a frame (L74-82). -/
inductive Op where
  | register
  | send

/-- The map `byChan` of the client (test.go L19) is written by the goroutine of the test and read by that of the server's loop whenever it sends (L52), without a lock. Frames sent and not
handled, how many frames the server has still to send for the one it handles. As in Go's runtime, a read that begins during a write ends the program; a write that begins during a read is not
noticed. The limit of the inbox (L63) is left out. -/
structure St where
  todo : List Op
  writing : Bool := false
  inbox : Nat := 0
  sends : Nat := 0
  reading : Bool := false
  fatal : Bool := false

/-- Steps: the test goes on; the server takes a frame, for which it sends `n`; begins to read the map for one of them; is done with it. -/
inductive Act where
  | test
  | handle (n : Nat)
  | read
  | done
deriving DecidableEq

/-- One step; nothing happens once the program was ended. test.go L43-57, L74-82, L95, L147. -/
def step (s : St) (a : Act) : Option St :=
  if s.fatal then none
  else match a with
    | .test => match s.todo with
      | .register :: l => if s.writing then some { s with writing := false, todo := l } else some { s with writing := true }
      | .send :: l => some { s with inbox := s.inbox + 1, todo := l }
      | [] => none
    | .handle n => if 0 < s.inbox ∧ s.sends = 0 then some { s with inbox := s.inbox - 1, sends := n } else none
    | .read => if 0 < s.sends ∧ s.reading = false then (if s.writing then some { s with fatal := true } else some { s with reading := true }) else none
    | .done => if s.reading then some { s with reading := false, sends := s.sends - 1 } else none

/-- Several steps. -/
def run : List Act → St → Option St
  | [], s => some s
  | a :: l, s => (step s a).bind (run l)

/-- C158: a test that registers all its channels before it sends the first frame is safe.
What is missing: `Open` does both, so the second one is not, see `C158_race_violated`. -/
theorem C158_race_partial (n m : Nat) (as : List Act) (s : St) (h : run as { todo := List.replicate n .register ++ List.replicate m .send } = some s) : s.fatal = false := by
  have key : ∀ (as : List Act) (s s' : St), run as s = some s' → s.fatal = false →
      ((∃ n m, s.todo = List.replicate n .register ++ List.replicate m .send ∧ s.inbox = 0 ∧ s.sends = 0 ∧ (s.writing = true → n ≠ 0)) ∨ (s.writing = false ∧ ∃ m, s.todo = List.replicate m .send)) → s'.fatal = false := by
    intro as
    induction as with
    | nil => intro s s' h hf _; cases h; exact hf
    | cons a as ih =>
      intro s s' h hf hi
      simp only [run, Option.bind_eq_some_iff] at h
      obtain ⟨t, ht, hr⟩ := h
      unfold step at ht
      rw [if_neg (by simp [hf])] at ht
      refine ih t s' hr ?_ ?_
      · cases a with
        | test =>
          simp only at ht
          split at ht
          · split at ht <;> (cases ht; exact hf)
          · cases ht; exact hf
          · exact nomatch ht
        | handle k => simp only at ht; split at ht <;> cases ht; exact hf
        | read =>
          simp only at ht
          split at ht
          · next hs =>
            rcases hi with ⟨_, _, _, _, h0, _⟩ | ⟨hw, _⟩
            · omega
            · rw [if_neg (by simp [hw])] at ht
              cases ht
              exact hf
          · exact nomatch ht
        | done => simp only at ht; split at ht <;> cases ht; exact hf
      · cases a with
        | test =>
          simp only at ht
          rcases hi with ⟨n, m, h1, h2, h3, h4⟩ | ⟨hw, m, h1⟩
          · cases n with
            | succ n =>
              rw [h1, List.replicate_succ, List.cons_append] at ht
              simp only at ht
              split at ht
              · cases ht; exact .inl ⟨n, m, rfl, h2, h3, fun h => (nomatch h)⟩
              · cases ht; exact .inl ⟨n + 1, m, rfl, h2, h3, fun _ => by omega⟩
            | zero =>
              rw [List.replicate_zero, List.nil_append] at h1
              have hw : s.writing = false := by
                cases hw : s.writing with
                | true => exact absurd rfl (h4 hw)
                | false => rfl
              cases m with
              | zero => rw [h1] at ht; exact nomatch ht
              | succ m =>
                rw [h1, List.replicate_succ] at ht
                cases ht
                exact .inr ⟨hw, m, rfl⟩
          · cases m with
            | zero => rw [h1] at ht; exact nomatch ht
            | succ m =>
              rw [h1, List.replicate_succ] at ht
              cases ht
              exact .inr ⟨hw, m, rfl⟩
        | handle k =>
          simp only at ht
          split at ht
          · next hs =>
            cases ht
            rcases hi with ⟨_, _, _, h0, _, _⟩ | hi
            · omega
            · exact .inr hi
          · exact nomatch ht
        | read =>
          simp only at ht
          split at ht
          · next hs =>
            rcases hi with ⟨_, _, _, _, h0, _⟩ | hi
            · omega
            · rw [if_neg (by simp [hi.1])] at ht
              cases ht
              exact .inr hi
          · exact nomatch ht
        | done =>
          simp only at ht
          split at ht
          · cases ht
            rcases hi with ⟨n, m, h1, h2, h3, h4⟩ | hi
            · exact .inl ⟨n, m, h1, h2, by simp [h3], h4⟩
            · exact .inr hi
          · exact nomatch ht
  exact key as _ s h rfl (.inl ⟨n, m, rfl, rfl, rfl, fun h => (nomatch h)⟩)

/-- C158 (negation): two channels opened one after the other, as `Open` does: if the server answers on the first while the second is registered, the program may end. -/
theorem C158_race_violated : ∃ as s, run as { todo := [.register, .send, .register, .send] } = some s ∧ s.fatal = true :=
  ⟨[.test, .test, .test, .handle 1, .test, .read], _, rfl, rfl⟩

/-- Without overlap nothing happens. -/
example : (run [.test, .test, .test, .handle 2, .read, .done, .read, .done, .test, .test, .test] { todo := [.register, .send, .register, .send] }).map (fun s => (s.fatal, s.inbox, s.sends)) =
    some (false, 1, 0) := rfl

end Race

/-! ### concrete cases -/

/-- Two contexts, of sizes 1 and 0. The second reply in the first waits, also after the connection was closed, until the first one's frame is taken; the reply in the second is handed over. -/
example : ∃ s, Exec (F := Nat) {} [.new 1, .new 0, .reply 0 10, .put 0, .reply 0 11, .reply 1 20, .close, .hand 2, .take 0, .put 1, .reply 0 12]
    [.returned 0 0 10 true, .returned 2 1 20 true, .got 1 20, .got 0 10, .returned 1 0 11 true, .returned 3 0 12 false] s ∧
    s.boxes.map (·.buf) = [[11], []] := by
  have e1 : Exec (F := Nat) {} [.new 1] [] _ := .snoc .nil rfl
  have e2 := Exec.snoc (a := .new 0) e1 rfl
  have e3 := Exec.snoc (a := .reply 0 10) e2 rfl
  have e4 := Exec.snoc (a := .put 0) e3 rfl
  have e5 := Exec.snoc (a := .reply 0 11) e4 rfl
  have e6 := Exec.snoc (a := .reply 1 20) e5 rfl
  have e7 := Exec.snoc (a := .close) e6 rfl
  have e8 := Exec.snoc (a := .hand 2) e7 rfl
  have e9 := Exec.snoc (a := .take 0) e8 rfl
  have e10 := Exec.snoc (a := .put 1) e9 rfl
  exact ⟨_, Exec.snoc (a := .reply 0 12) e10 rfl, rfl⟩

/-- A counter on channel "1"; a call on a channel only the client knows ends the connection. -/
example : (runFrames demoReg {} [⟨lit "1", lit "counter", lit "open", some 5⟩, ⟨lit "2", lit "get", [], none⟩, ⟨lit "1", lit "get", [], none⟩]).2 = .err := by decide

end Verif.Ws.TestCtx

import Verif.Ws.Serve
/-!
# C134: the life of a server side websocket
-/
set_option autoImplicit false
namespace Verif.Ws.Serve

section
variable {N σ : Type}

theorem served_evs (l : List (Stmt N)) : (served l).1 = (body l).1 ++ [.op .drop] := by
  simp only [served]
  cases (body l).2 <;> simp [body]

theorem served_out (l : List (Stmt N)) (h : (body l).2 ≠ .next) : (served l).2 = (body l).2 := by
  simp only [served]
  cases ho : (body l).2 <;> simp_all [body]

/-- C134: whatever happens, also if `OnConnect` or the handler panics, the handler takes one hold of the shutdown before anything else and releases it once after everything else; then its
context is cancelled, then the transport is closed. -/
theorem C134_hold (h : σ → N → σ × HRes) (f : Does N σ) (a : σ) (oc : Option (List Op × ConnRes)) (tr : List (Ws.Ev N)) :
    ∃ es, (served (handlerStmts h f a oc tr)).1 = .hold :: es ++ [.release, .cancel, .op .drop] ∧ .hold ∉ es ∧ .release ∉ es ∧ .cancel ∉ es := by
  obtain ⟨es, h1, h2, -⟩ := handler_shape h f a oc tr
  refine ⟨es, by rw [served_evs, h1]; simp, ?_, ?_, ?_⟩ <;> intro hm <;> have := h2 _ hm <;> simp [Inner] at this

/-- A handler that sends, and ends with the client. -/
example : (served (handlerStmts (fun (a : Nat) (_ : Char) => (a + 1, .ok)) (fun _ _ => [.send]) 0 (some ([.send], .ok)) [.begin 'x', .finish 'x' .ok, .disconnect, .close])).1 =
    [.hold, .connect, .op .send, .loop (.begin 'x'), .op .send, .loop (.finish 'x' .ok), .loop .disconnect, .op .send, .loop .close, .op (.close 1000), .op (.close 1000), .release, .cancel, .op .drop] := by decide

/-- C134: the same of rpc connections, which are like those of a handler without `OnConnect`. -/
theorem C134_rpc (h : σ → N → σ × HRes) (f : Does N σ) (a : σ) (tr : List (Ws.Ev N)) : served (rpcStmts h f a tr) = served (handlerStmts h f a none tr) := rfl

/-- C134: the counter of the shutdown is one higher while `OnConnect` or the loop runs, and as it was afterwards. -/
theorem C134_count (h : σ → N → σ × HRes) (f : Does N σ) (a : σ) (oc : Option (List Op × ConnRes)) (tr : List (Ws.Ev N)) (start : Int) :
    count start (served (handlerStmts h f a oc tr)).1 = start ∧
    ∀ pre e post, (served (handlerStmts h f a oc tr)).1 = pre ++ e :: post → (e = .connect ∨ ∃ x, e = .loop x) → count start pre = start + 1 := by
  obtain ⟨es, h1, h2, -⟩ := handler_shape h f a oc tr
  have hev : (served (handlerStmts h f a oc tr)).1 = .hold :: (es ++ [.release, .cancel, .op .drop]) := by rw [served_evs, h1]; simp
  rw [hev]
  have hc : ∀ (l m : List (Ev N)) (n : Int), count n (l ++ m) = count (count n l) m := fun l m n => by simp [count]
  have hh : ∀ (l : List (Ev N)) (n : Int), count n (.hold :: l) = count (n + 1) l := fun l n => by simp [count]
  constructor
  · rw [hh, hc, count_inner es h2]
    simp only [count, List.foldl]
    omega
  · intro pre e post heq he
    have hne : e ≠ .hold ∧ e ≠ .release ∧ e ≠ .cancel ∧ e ≠ .op .drop := by
      rcases he with rfl | ⟨x, rfl⟩ <;> simp
    cases pre with
    | nil => simp only [List.nil_append, List.cons.injEq] at heq; exact absurd heq.1.symm hne.1
    | cons p pre =>
      simp only [List.cons_append, List.cons.injEq] at heq
      obtain ⟨rfl, heq⟩ := heq
      rw [hh]
      have hpre : pre <+: es := by
        rcases List.append_eq_append_iff.1 heq with ⟨y, h3, h4⟩ | ⟨y, h3, h4⟩
        · exfalso
          have : e ∈ y ++ e :: post := by simp
          rw [← h4] at this
          simp only [List.mem_cons, List.not_mem_nil, or_false] at this
          rcases this with h | h | h <;> simp [h] at hne
        · exact ⟨y, h3.symm⟩
      exact count_inner pre (fun e he => h2 e (hpre.subset he)) _

example : count 3 (served (handlerStmts (fun (a : Nat) (_ : Char) => (a, .panic)) (fun _ _ => []) 0 none [.begin 'x', .finish 'x' .panic])).1 = 3 ∧
    (served (handlerStmts (fun (a : Nat) (_ : Char) => (a, .panic)) (fun _ _ => []) 0 none [.begin 'x', .finish 'x' .panic])).2 = .panic := by decide

/-- C134: nothing is handled, nor waited for, unless `OnConnect`, if there is one, was called before and accepted; it is called at most once. -/
theorem C134_connect (h : σ → N → σ × HRes) (f : Does N σ) (a : σ) (oc : Option (List Op × ConnRes)) (tr : List (Ws.Ev N)) (hoc : oc ≠ none) :
    ∃ post, (served (handlerStmts h f a oc tr)).1 = .hold :: .connect :: post ∧ .connect ∉ post ∧
      ((∃ e, .loop e ∈ post) → ∃ ops, oc = some (ops, .ok)) := by
  obtain ⟨es, h1, h2, h3⟩ := handler_shape h f a oc tr
  have hin : ∀ l : List (Ev N), (∀ e ∈ l, Inner e) → .connect ∉ l := fun l hl hm => by have := hl _ hm; simp [Inner] at this
  have hops : ∀ (ops : List Op) (e : Ws.Ev N), Ev.loop e ∉ ops.map (Ev.op (N := N)) := by simp
  have hnil : ∀ e : Ws.Ev N, Ev.loop e ∉ (body (loopStmts h f a true tr)).1 := by
    intro e
    simp [loopStmts, body]
  rcases oc with _ | ⟨ops, r⟩
  · exact absurd rfl hoc
  · have hes : ∃ l, es = .connect :: l ∧ .connect ∉ l ∧ ((∃ e, .loop e ∈ l) → r = .ok) := by
      rcases r with _ | _ | _ | _ <;> simp only [List.cons_append] at h3
      · refine ⟨_, h3, ?_, fun _ => rfl⟩
        apply hin
        intro e he
        rcases List.mem_append.1 he with he | he
        · exact ops_inner ops e he
        · exact loopStmts_inner h f a false tr e he
      · refine ⟨_, h3, ?_, ?_⟩
        · apply hin
          intro e he
          rcases List.mem_append.1 he with he | he
          · exact ops_inner ops e he
          · exact loopStmts_inner h f a true tr e he
        · rintro ⟨e, he⟩
          rcases List.mem_append.1 he with he | he
          · exact absurd he (hops ops e)
          · exact absurd he (hnil e)
      · exact ⟨_, h3, hin _ (ops_inner ops), fun ⟨e, he⟩ => absurd he (hops ops e)⟩
      · exact ⟨_, h3, hin _ (ops_inner ops), fun ⟨e, he⟩ => absurd he (hops ops e)⟩
    obtain ⟨l, rfl, h4, h5⟩ := hes
    refine ⟨l ++ [.release, .cancel, .op .drop], by rw [served_evs, h1]; simp, by simp [h4], ?_⟩
    rintro ⟨e, he⟩
    have he : Ev.loop e ∈ l := by simpa using he
    exact ⟨ops, by rw [h5 ⟨e, he⟩]⟩

/-- A connection that is refused. -/
example : (served (handlerStmts (fun (a : Nat) (_ : Char) => (a, .ok)) (fun _ _ => []) 0 (some ([.send], .err)) [.begin 'x'])).1 = [.hold, .connect, .op .send, .release, .cancel, .op .drop] := by decide

/-- C134: a panic is passed on (to `net/http`, which recovers it) exactly if `OnConnect` panics or accepts with the nil context, or the loop runs and the handler of a message panics. -/
theorem C134_panics (h : σ → N → σ × HRes) (f : Does N σ) (a : σ) (oc : Option (List Op × ConnRes)) (tr : List (Ws.Ev N)) :
    (served (handlerStmts h f a oc tr)).2 = .panic ↔
      (∃ ops, oc = some (ops, .panic) ∨ oc = some (ops, .nil)) ∨ ((oc = none ∨ ∃ ops, oc = some (ops, .ok)) ∧ ∃ n, .finish n .panic ∈ tr) := by
  have hl : ∀ o : Out, o ≠ .panic → (body [Stmt.defer_ [Ev.op (N := N) (.close 1000)], .exec [] o]).2 ≠ .panic := by
    intro o ho; cases o <;> simp_all [body]
  have hp : loopOut tr = .panic ↔ ∃ n, .finish n .panic ∈ tr := by
    simp only [loopOut]
    constructor
    · intro hx
      split at hx
      · rename_i ht
        obtain ⟨e, he, h2⟩ := List.any_eq_true.1 ht
        split at h2
        · exact ⟨_, he⟩
        · cases h2
      · cases hx
    · rintro ⟨n, hn⟩
      rw [if_pos (List.any_eq_true.2 ⟨_, hn, rfl⟩)]
  have hnx : loopOut tr = .next ∨ loopOut tr = .panic := by simp only [loopOut]; split <;> simp
  rcases oc with _ | ⟨ops, _ | _ | _ | _⟩
  · rcases hnx with hn | hn
    · have : ¬ ∃ n, .finish n .panic ∈ tr := fun hx => by rw [hp.2 hx] at hn; cases hn
      simp [served, handlerStmts, loopStmts, body, hn, this]
    · have := hp.1 hn
      simp [served, handlerStmts, loopStmts, body, hn, this]
  · rcases hnx with hn | hn
    · have : ¬ ∃ n, .finish n .panic ∈ tr := fun hx => by rw [hp.2 hx] at hn; cases hn
      simp [served, handlerStmts, loopStmts, body, hn, this]
    · have := hp.1 hn
      simp [served, handlerStmts, loopStmts, body, hn, this]
  · simp [served, handlerStmts, loopStmts, body]
  · simp [served, handlerStmts, body]
  · simp [served, handlerStmts, body]

example : (served (handlerStmts (fun (a : Nat) (_ : Char) => (a, .ok)) (fun _ _ => []) 0 (some ([], .nil)) [.begin 'x'])).2 = .panic ∧
    (served (handlerStmts (fun (a : Nat) (_ : Char) => (a, .ok)) (fun _ _ => []) 0 (some ([], .err)) [.begin 'x'])).2 ≠ .panic := by decide

/-! ### the frames -/

/-- A close frame. -/
def Frame.isClose : Frame → Bool
  | .close _ => true
  | .data => false

/-- Messages, then at most two close frames, and then nothing more is sent. -/
def Tidy (w : Wire) : Prop :=
  ∃ xs cs : List Frame, w.sent = xs ++ cs ∧ (∀ x ∈ xs, x = .data) ∧ (∀ c ∈ cs, c.isClose = true) ∧ cs.length ≤ 2 ∧ (cs ≠ [] → w.isOpen = false)

theorem write_closed (ok : Nat → Bool) (w : Wire) (fr : Frame) (h : w.isOpen = false) : (w.write ok fr).1.sent = w.sent ∧ (w.write ok fr).1.isOpen = false ∧ (w.write ok fr).2 = false := by
  simp [Wire.write, h]

theorem op_closed (ok : Nat → Bool) (w : Wire) (o : Op) (h : w.isOpen = false) : (w.op ok o).sent = w.sent ∧ (w.op ok o).isOpen = false := by
  cases o with
  | send => exact ⟨(write_closed ok w _ h).1, (write_closed ok w _ h).2.1⟩
  | drop => exact ⟨rfl, rfl⟩
  | close st => simp [Wire.op, Wire.close, Wire.write, h]

theorem tidy_op (ok : Nat → Bool) (w : Wire) (o : Op) (h : Tidy w) : Tidy (w.op ok o) := by
  obtain ⟨xs, cs, h1, h2, h3, h4, h5⟩ := h
  by_cases hop : w.isOpen = false
  · obtain ⟨k1, k2⟩ := op_closed ok w o hop
    exact ⟨xs, cs, by rw [k1, h1], h2, h3, h4, fun _ => k2⟩
  · have hop : w.isOpen = true := by simpa using hop
    have hcs : cs = [] := by
      cases cs with
      | nil => rfl
      | cons c cs => rw [h5 (by simp)] at hop; cases hop
    subst hcs
    have hxs : ∀ x ∈ w.sent, x = .data := by rw [h1]; simpa using h2
    cases o with
    | drop => exact ⟨w.sent, [], by simp [Wire.op], hxs, by simp, by simp, by simp⟩
    | send =>
      by_cases hk : ok w.tries = true
      · refine ⟨w.sent ++ [.data], [], by simp [Wire.op, Wire.write, hop, hk], ?_, by simp, by simp, by simp⟩
        intro x hx
        rcases List.mem_append.1 hx with hx | hx
        · exact hxs x hx
        · simpa using hx
      · exact ⟨w.sent, [], by simp [Wire.op, Wire.write, hk], hxs, by simp, by simp, by simp⟩
    | close st =>
      by_cases hk : ok w.tries = true
      · by_cases hk2 : ok (w.tries + 1) = true
        · exact ⟨w.sent, [.close (st % 65536), .close 1000], by simp [Wire.op, Wire.close, Wire.write, hop, hk, hk2], hxs, by simp [Frame.isClose], by simp,
            fun _ => by simp [Wire.op, Wire.close, Wire.write, hop, hk, hk2]⟩
        · exact ⟨w.sent, [.close (st % 65536)], by simp [Wire.op, Wire.close, Wire.write, hop, hk, hk2], hxs, by simp [Frame.isClose], by simp,
            fun _ => by simp [Wire.op, Wire.close, Wire.write, hop, hk, hk2]⟩
      · exact ⟨w.sent, [], by simp [Wire.op, Wire.close, Wire.write, hk], hxs, by simp, by simp, by simp⟩

theorem tidy_ops (ok : Nat → Bool) : ∀ (l : List Op) (w : Wire), Tidy w → Tidy (l.foldl (Wire.op ok) w)
  | [], _, h => h
  | o :: l, w, h => tidy_ops ok l _ (tidy_op ok w o h)

theorem tidy_init : Tidy {} := ⟨[], [], rfl, by simp, by simp, by simp, by simp⟩

/-- C134: when the handler is done the transport is closed, however it ended and whatever failed; the peer was sent messages, then at most two close frames, and nothing after them. -/
theorem C134_closed (ok : Nat → Bool) (h : σ → N → σ × HRes) (f : Does N σ) (a : σ) (oc : Option (List Op × ConnRes)) (tr : List (Ws.Ev N)) :
    (wireOf ok (served (handlerStmts h f a oc tr)).1).isOpen = false ∧
    ∃ xs cs : List Frame, (wireOf ok (served (handlerStmts h f a oc tr)).1).sent = xs ++ cs ∧ (∀ x ∈ xs, x = .data) ∧ (∀ c ∈ cs, c.isClose = true) ∧ cs.length ≤ 2 := by
  constructor
  · rw [served_evs, wireOf, opsOf_append]
    simp [opsOf, Wire.op]
  · obtain ⟨xs, cs, h1, h2, h3, h4, -⟩ := tidy_ops ok (opsOf (served (handlerStmts h f a oc tr)).1) {} tidy_init
    exact ⟨xs, cs, h1, h2, h3, h4⟩

/-- Even if no frame can be written. -/
example : (wireOf (fun _ => false) (served (handlerStmts (fun (a : Nat) (_ : Char) => (a + 1, .ok)) (fun _ _ => [.send]) 0 none [.begin 'x', .finish 'x' .ok, .disconnect, .close])).1).isOpen = false := by decide

/-- The status of the first `Close`. -/
def firstClose : List Op → Option Nat
  | [] => none
  | .close st :: _ => some st
  | _ :: l => firstClose l

/-- The messages sent before the first `Close`. -/
def sends : List Op → Nat
  | [] => 0
  | .close _ :: _ => 0
  | .send :: l => sends l + 1
  | .drop :: l => sends l

theorem foldl_closed (ok : Nat → Bool) : ∀ (l : List Op) (w : Wire), w.isOpen = false → (l.foldl (Wire.op ok) w).sent = w.sent
  | [], _, _ => rfl
  | o :: l, w, h => by
    obtain ⟨h1, h2⟩ := op_closed ok w o h
    rw [List.foldl_cons, foldl_closed ok l _ h2, h1]

/-- If writing never fails, and the transport is not closed from outside before. -/
theorem foldl_sent (ok : Nat → Bool) (hk : ∀ n, ok n = true) : ∀ (l : List Op) (w : Wire), w.isOpen = true → (∀ l1 l2, l = l1 ++ .drop :: l2 → l2 = []) →
    (l.foldl (Wire.op ok) w).sent = w.sent ++ List.replicate (sends l) .data ++ (match firstClose l with | none => [] | some st => [.close (st % 65536), .close 1000])
  | [], w, _, _ => by simp [sends, firstClose]
  | .close st :: l, w, h, _ => by
    rw [List.foldl_cons, foldl_closed]
    · simp [Wire.op, Wire.close, Wire.write, h, hk, sends, firstClose]
    · simp [Wire.op, Wire.close, Wire.write, h, hk]
  | .send :: l, w, h, hd => by
    rw [List.foldl_cons, foldl_sent ok hk l]
    · simp [Wire.op, Wire.write, h, hk, sends, firstClose, List.replicate_succ]
    · simp [Wire.op, Wire.write, h, hk]
    · intro l1 l2 hl
      exact hd (.send :: l1) l2 (by rw [hl]; rfl)
  | .drop :: l, w, h, hd => by
    have : l = [] := hd [] l rfl
    subst this
    simp [Wire.op, sends, firstClose]

theorem firstClose_append (l m : List Op) : firstClose (l ++ m) = (firstClose l).or (firstClose m) := by
  induction l with
  | nil => simp [firstClose]
  | cons o l ih => cases o <;> simp [firstClose, ih]

/-- The transport is closed from outside only at the end. -/
def NoDrop (l : List Op) : Prop := .drop ∉ l

theorem loopEvs_noDrop (h : σ → N → σ × HRes) (f : Does N σ) (hf : ∀ a n, NoDrop (f a n)) : ∀ (tr : List (Ws.Ev N)) (a : σ), NoDrop (opsOf (loopEvs h f a tr))
  | [], a => by simp [loopEvs, opsOf, NoDrop]
  | .begin n :: l, a => by
    have := loopEvs_noDrop h f hf l (h a n).1
    have h2 := hf a n
    simp only [NoDrop] at this h2
    simp [loopEvs, opsOf, NoDrop, opsOf_append, opsOf_map, this, h2]
  | .finish n r :: l, a => by
    have := loopEvs_noDrop h f hf l a
    simpa [loopEvs, opsOf, NoDrop] using this
  | .disconnect :: l, a => by
    have := loopEvs_noDrop h f hf l a
    simpa [loopEvs, opsOf, NoDrop] using this
  | .quit :: l, a => by
    have := loopEvs_noDrop h f hf l a
    simpa [loopEvs, opsOf, NoDrop] using this
  | .close :: l, a => by
    have := loopEvs_noDrop h f hf l a
    simpa [loopEvs, opsOf, NoDrop] using this

theorem opsOf_loopStmts (h : σ → N → σ × HRes) (f : Does N σ) (a : σ) (b : Bool) (tr : List (Ws.Ev N)) :
    opsOf (body (loopStmts h f a b tr)).1 = (if b then [.close 1000] else opsOf (loopEvs h f a tr)) ++ [.close 1000] := by
  cases b with
  | true => simp [loopStmts, body, opsOf]
  | false =>
    simp only [loopStmts, Bool.false_eq_true, if_false]
    cases loopOut tr <;> simp [body, opsOf_append, opsOf]

/-- What the application does to the connection while the loop runs, in order, and the disconnect frame. -/
def appOps (h : σ → N → σ × HRes) (f : Does N σ) : σ → List (Ws.Ev N) → List Op
  | _, [] => []
  | a, .begin n :: l => f a n ++ appOps h f (h a n).1 l
  | a, .disconnect :: l => .send :: appOps h f a l
  | a, _ :: l => appOps h f a l

theorem opsOf_loopEvs (h : σ → N → σ × HRes) (f : Does N σ) : ∀ (tr : List (Ws.Ev N)) (a : σ), (∀ e ∈ tr, e.isClose = false) →
    opsOf (loopEvs h f a (tr ++ [.close])) = appOps h f a tr ++ [.close 1000]
  | [], a, _ => by simp [loopEvs, opsOf, appOps]
  | .begin n :: l, a, hc => by
    simp [loopEvs, appOps, opsOf, opsOf_append, opsOf_map, opsOf_loopEvs h f l _ (fun e he => hc e (List.mem_cons_of_mem _ he))]
  | .finish n r :: l, a, hc => by
    simp [loopEvs, appOps, opsOf, opsOf_loopEvs h f l _ (fun e he => hc e (List.mem_cons_of_mem _ he))]
  | .disconnect :: l, a, hc => by
    simp [loopEvs, appOps, opsOf, opsOf_loopEvs h f l _ (fun e he => hc e (List.mem_cons_of_mem _ he))]
  | .quit :: l, a, hc => by
    simp [loopEvs, appOps, opsOf, opsOf_loopEvs h f l _ (fun e he => hc e (List.mem_cons_of_mem _ he))]
  | .close :: l, a, hc => by
    have := hc _ List.mem_cons_self
    simp [Ws.Ev.isClose] at this

/-- C134: if the connection was accepted and writing does not fail, the peer gets every message sent before the first `Close`, by `OnConnect`, by the handler of messages, or the disconnect frame;
then it is told, with the status of that `Close`, or 1000 if the application did not close, and nothing else follows than a second close frame. -/
theorem C134_told_partial (ok : Nat → Bool) (hk : ∀ n, ok n = true) (h : σ → N → σ × HRes) (f : Does N σ) (hf : ∀ a n, NoDrop (f a n)) (a : σ) (oc : Option (List Op))
    (hoc : NoDrop (oc.getD [])) (input : List N) (tr : List (Ws.Ev N)) (s : Ws.St N σ) (he : Exec h { input, app := a } tr s) (hx : s.main = .exited) :
    ∃ t, tr = t ++ [.close] ∧
      (wireOf ok (served (handlerStmts h f a (oc.map (·, ConnRes.ok)) tr)).1).sent =
        List.replicate (sends (oc.getD [] ++ appOps h f a t ++ [.close 1000])) .data ++
          [.close ((firstClose (oc.getD [] ++ appOps h f a t)).getD 1000 % 65536), .close 1000] := by
  obtain ⟨t, rfl, hc⟩ := (C60_closed h input a tr s he).1 hx
  refine ⟨t, rfl, ?_⟩
  have hd := loopEvs_noDrop h f hf (t ++ [.close]) a
  rw [opsOf_loopEvs h f t a hc] at hd
  have hops : opsOf (served (handlerStmts h f a (oc.map (·, ConnRes.ok)) (t ++ [.close]))).1 = oc.getD [] ++ appOps h f a t ++ [.close 1000, .close 1000] ++ [.drop] := by
    obtain ⟨es, h1, -, h3⟩ := handler_shape h f a (oc.map (·, ConnRes.ok)) (t ++ [.close])
    rw [served_evs, h1]
    cases oc with
    | none =>
      simp only [Option.map_none] at h3
      rw [h3]
      simp [opsOf, opsOf_append, opsOf_loopStmts, opsOf_loopEvs h f t a hc]
    | some ops =>
      simp only [Option.map_some] at h3
      rw [h3]
      simp [opsOf, opsOf_append, opsOf_map, opsOf_loopStmts, opsOf_loopEvs h f t a hc]
  have hnd : NoDrop (oc.getD [] ++ appOps h f a t ++ [.close 1000, .close 1000]) := by
    simp only [NoDrop, List.mem_append, not_or] at hd hoc ⊢
    exact ⟨⟨hoc, hd.1⟩, by simp⟩
  rw [wireOf, hops, foldl_sent ok hk _ _ rfl]
  · have hs : ∀ l m : List Op, sends (l ++ [.close 1000, .close 1000] ++ m) = sends (l ++ [.close 1000]) := by
      intro l m
      induction l with
      | nil => rfl
      | cons o l ih => cases o <;> simp_all [sends]
    rw [hs]
    congr 1
    rw [firstClose_append, firstClose_append (oc.getD [] ++ appOps h f a t)]
    cases firstClose (oc.getD [] ++ appOps h f a t) <;> simp [firstClose]
  · intro l1 l2 hl
    rcases List.append_eq_append_iff.1 hl with ⟨y, h3, h4⟩ | ⟨y, h3, h4⟩
    · cases y with
      | nil => simpa using h4
      | cons x y => simp at h4
    · cases y with
      | nil => simpa using h4
      | cons x y =>
        simp only [List.cons_append, List.cons.injEq] at h4
        exfalso
        apply hnd
        rw [h3, ← h4.1]
        simp

/-- C134 fails: of an accepted connection the peer gets two close frames, whatever the application does. -/
theorem C134_twice_violated (ok : Nat → Bool) (hk : ∀ n, ok n = true) (h : σ → N → σ × HRes) (f : Does N σ) (hf : ∀ a n, NoDrop (f a n)) (a : σ) (oc : Option (List Op))
    (hoc : NoDrop (oc.getD [])) (input : List N) (tr : List (Ws.Ev N)) (s : Ws.St N σ) (he : Exec h { input, app := a } tr s) (hx : s.main = .exited) :
    (wireOf ok (served (handlerStmts h f a (oc.map (·, ConnRes.ok)) tr)).1).sent.countP Frame.isClose = 2 := by
  obtain ⟨t, -, h2⟩ := C134_told_partial ok hk h f hf a oc hoc input tr s he hx
  rw [h2, List.countP_append]
  simp [Frame.isClose, List.countP_replicate, List.countP_cons]

/-- C134 fails: a peer refused by `OnConnect` (or by its panic) is not told: the transport ends without a close frame. -/
theorem C134_refused_violated (ok : Nat → Bool) (h : σ → N → σ × HRes) (f : Does N σ) (a : σ) (ops : List Op) (r : ConnRes) (hr : r = .err ∨ r = .panic)
    (ho : ∀ st, .close st ∉ ops) (tr : List (Ws.Ev N)) :
    (wireOf ok (served (handlerStmts h f a (some (ops, r)) tr)).1).sent.countP Frame.isClose = 0 := by
  have hops : opsOf (served (handlerStmts h f a (some (ops, r)) tr)).1 = ops ++ [.drop] := by
    rw [served_evs]
    rcases hr with rfl | rfl <;> simp [handlerStmts, body, opsOf, opsOf_append, opsOf_map]
  rw [wireOf, hops]
  have key : ∀ (l : List Op) (w : Wire), (∀ st, .close st ∉ l) → w.sent.countP Frame.isClose = 0 → (l.foldl (Wire.op ok) w).sent.countP Frame.isClose = 0 := by
    intro l
    induction l with
    | nil => intro w _ h; exact h
    | cons o l ih =>
      intro w hc hw
      refine ih _ (fun st hm => hc st (List.mem_cons_of_mem _ hm)) ?_
      cases o with
      | close st => exact absurd List.mem_cons_self (hc st)
      | drop => exact hw
      | send =>
        simp only [Wire.op, Wire.write]
        split
        · simp [List.countP_append, hw, Frame.isClose]
        · exact hw
  refine key _ _ (fun st hm => ?_) rfl
  rcases List.mem_append.1 hm with hm | hm
  · exact ho st hm
  · simp at hm

example : (wireOf (fun _ => true) (served (handlerStmts (fun (a : Nat) (_ : Char) => (a, .ok)) (fun _ _ => []) 0 (some ([.send], .err)) [])).1).sent = [.data] := by decide

/-- C134: `Close` closes the transport, if the close frame can be written; -/
theorem C134_close_partial (ok : Nat → Bool) (w : Wire) (st : Nat) (h : ok w.tries = true) : (w.close ok st).isOpen = false := by
  cases ho : w.isOpen <;> simp [Wire.close, Wire.write, h, ho]

/-- C134 fails: if it can not, the transport is left open (until the handler returns). -/
theorem C134_close_violated (ok : Nat → Bool) (w : Wire) (st : Nat) (ho : w.isOpen = true) (h : ok w.tries = false) : (w.close ok st).isOpen = true := by
  simp [Wire.close, Wire.write, h, ho]

/-- The first write fails, the second works. -/
example : ((({} : Wire).write (fun n => n != 0) (.data)).1.write (fun n => n != 0) (.data)).2 = true := by decide

example : (({} : Wire).close (fun _ => false) 1000).isOpen = true ∧ (({} : Wire).close (fun _ => true) 1000).isOpen = false := by decide

/-- C134: the goroutine that reads, which may be left behind by the loop (C90), ends soon after the handler: its context is cancelled then. -/
theorem C134_reader (h : σ → N → σ × HRes) (input : List N) (a : σ) (tr : List (Ws.Ev N)) (s : Ws.St N σ) (_he : Exec h { input, app := a } tr s) (hx : s.main = .exited) :
    s.reader = .done ∨ ∃ s', Step h { s with cancelled := true } [] s' ∧ s'.reader = .done ∧ s'.main = .exited := by
  rcases s with ⟨i, r, m, c, ap⟩
  cases r with
  | reading => exact Or.inr ⟨_, .fail rfl, rfl, hx⟩
  | sending n => exact Or.inr ⟨_, .readerQuit rfl rfl, rfl, hx⟩
  | done => exact Or.inl rfl

/-- C134 fails: the comment says that the handshake accepts any request; one without an `Origin` header, as sent by programs other than browsers, is refused. -/
theorem C134_handshake_violated {U : Type} (parse : String → Option U) : handshake parse none = false ∧ handshake parse (some "") = false := ⟨rfl, by simp [handshake]⟩

/-- C134: with an `Origin` header it accepts what can be parsed, from wherever it is. -/
theorem C134_handshake_partial {U : Type} (parse : String → Option U) (o : String) (ho : o ≠ "") : handshake parse (some o) = true ↔ ∃ u, parse o = some u := by
  simp [handshake, ho, Option.isSome_iff_exists]

end

/-- The application greets in `OnConnect`, answers the first message, and closes with status 1001 at the second. -/
example : (wireOf (fun _ => true) (served (handlerStmts (fun (a : Nat) (_ : Char) => (a + 1, .ok)) (fun a _ => if a = 0 then [.send] else [.close 1001, .send]) 0 (some ([.send], .ok))
    [.begin 'x', .finish 'x' .ok, .begin 'y', .finish 'y' .ok, .quit, .close])).1).sent = [.data, .data, .close 1001, .close 1000] := by decide

/-- The handler fails: the disconnect frame, and the close frames. If the second write fails nothing more than the first arrives. -/
example : (wireOf (fun _ => true) (served (handlerStmts (fun (a : Nat) (_ : Char) => (a + 1, .err)) (fun _ _ => []) 0 none
    [.begin 'x', .finish 'x' .err, .disconnect, .close])).1).sent = [.data, .close 1000, .close 1000] := by decide

end Verif.Ws.Serve

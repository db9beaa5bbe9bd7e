import Verif.Http.ClientProps
import Verif.Ws.Told
/-!
# What the log tells of failures: http/server.go, http/call.go, http/ws

The lines of level warning and above that are written while a request or a frame is handled (C187). What net/http logs by itself when a handler panics is not
part of it. `breaks i` says whether the write number `i` to the writer of net/http fails, and `k` how many of the chunks of a gzipped response are
written by `gzip.Writer.Write`; `Close` writes the others.
-/
set_option autoImplicit false
namespace Verif.Http.Logged
open Verif.Strconv Verif.Enc Verif.Api Verif.Http

/-- A line of the log. http/server.go L207, L243, http/call.go L59, http/ws/channel.go L42. -/
inductive Line where
  | failed (text : Str)
  | unsent
  | panicked
deriving DecidableEq

/-- Whether a write among the first `n` fails. http/server.go L236, L240. -/
def anyBreaks (breaks : Nat → Bool) (n : Nat) : Bool := (List.range n).any breaks

/-- The lines of `handleRequest`, given what `f` returned. The error of `gzip.Writer.Close` and those of writing an error are dropped. http/server.go L205-245. -/
def requestLog (N : NetExt) (accept : Str) (k : Nat) (breaks : Nat → Bool) : Done Bytes → List Line
  | .panic => []
  | .err e => [.failed (lit "http: " ++ errText N e)]
  | .ok out =>
    if out.length = 0 then []
    else if out.length > 16 * 1024 ∧ contains (lit "gzip") accept = true then (if anyBreaks breaks (min k (N.gz out).length) then [.unsent] else [])
    else if anyBreaks breaks 1 then [.unsent] else []

/-- The lines of a `CallHandler`. http/call.go L48-61. -/
def callLog (breaks : Nat → Bool) : Done Bytes → List Line
  | .panic => []
  | .err _ => []
  | .ok out => if out.length = 0 then [] else if anyBreaks breaks 1 then [.unsent] else []

/-- What is written. http/mux.go L69-74. -/
def Op.bytes? : Op → Option Bytes
  | .write b => some b
  | _ => none

/-- What gets through when writes are made one after the other until one fails. http/server.go L236-240. -/
def through (breaks : Nat → Bool) : Nat → List Bytes → List Bytes
  | _, [] => []
  | i, b :: l => if breaks i then [] else b :: through breaks (i + 1) l

/-- What a response is made of. http/server.go L205-244. -/
def chunks (ops : List Op) : List Bytes := ops.filterMap Op.bytes?

theorem through_all (breaks : Nat → Bool) (l : List Bytes) (i : Nat) : through breaks i l = l ↔ ∀ j < l.length, breaks (i + j) = false := by
  induction l generalizing i with
  | nil => simp [through]
  | cons b l ih =>
    simp only [through]
    cases hb : breaks i with
    | true =>
      simp only [if_true, List.length_cons]
      constructor
      · intro h; cases h
      · intro h; have := h 0 (by omega); simp [hb] at this
    | false =>
      simp only [Bool.false_eq_true, if_false, List.cons.injEq, true_and, ih, List.length_cons]
      constructor
      · intro h j hj
        cases j with
        | zero => exact hb
        | succ j => have := h j (by omega); rwa [show i + 1 + j = i + (j + 1) by omega] at this
      · intro h j hj
        have := h (j + 1) (by omega)
        rwa [show i + (j + 1) = i + 1 + j by omega] at this

theorem any_iff (breaks : Nat → Bool) (n : Nat) : anyBreaks breaks n = false ↔ ∀ j < n, breaks j = false := by
  simp [anyBreaks]

/-- C187 (partial): when a request fails, be it because of its body, its inputs or what it does, exactly one line is logged, and it has the text of the error;
and such a line is logged only then. Missing: handlers of `Call` and websockets, and failures of sending the response. -/
theorem C187_failed_partial (N : NetExt) (accept : Str) (k : Nat) (breaks : Nat → Bool) (f : Bytes → Done Bytes) (body : Option (Option Bytes)) (t : Str) :
    Line.failed t ∈ requestLog N accept k breaks (readBody N f body) ↔ ∃ e, readBody N f body = .err e ∧ t = lit "http: " ++ errText N e ∧
      requestLog N accept k breaks (readBody N f body) = [.failed t] := by
  cases h : readBody N f body with
  | panic => simp [requestLog]
  | err e => simp only [requestLog, List.mem_singleton, Line.failed.injEq, Done.err.injEq]; grind
  | ok out =>
    simp only [requestLog, reduceCtorEq, false_and, exists_false, iff_false]
    repeat' split
    all_goals simp

/-- C187 (partial): nothing gets lost: internal errors with different texts, which clients can not tell apart, differ in the log. -/
theorem C187_kept_partial (N : NetExt) (tid accept : Str) (k : Nat) (breaks : Nat → Bool) (f f' : Bytes → Done Bytes) (body : Option (Option Bytes)) (e e' : Error)
    (hf : readBody N f body = .err e) (hf' : readBody N f' body = .err e') (hc : Errors.errorCode (some e) 500 = Errors.errorCode (some e') 500)
    (h5 : 500 ≤ Errors.errorCode (some e) 500) (ht : errText N e ≠ errText N e') :
    handleRequest N tid accept f body = handleRequest N tid accept f' body ∧
    requestLog N accept k breaks (readBody N f body) ≠ requestLog N accept k breaks (readBody N f' body) := by
  refine ⟨C56_no_leak N N _ _ _ _ _ _ _ e e' hf hf' hc h5, ?_⟩
  rw [hf, hf']
  simpa [requestLog] using ht

/-- C187 (violated): of an error of a `Call` handler nothing is logged, and nothing of it is sent but its code: calls that fail with the same code, for whatever
reasons, look the same to clients and in the log. -/
theorem C187_call_violated (breaks : Nat → Bool) (e e' : Error) (h : Errors.errorCode (some e) 500 = Errors.errorCode (some e') 500) :
    callLog breaks (.err e) = [] ∧ callOps (.err e) = callOps (.err e') ∧ ∀ ops, callOps (.err e) = some ops → chunks ops = [] := by
  refine ⟨rfl, by simp [callOps, h], ?_⟩
  intro ops ho
  simp only [callOps, Option.some.injEq] at ho
  subst ho; rfl

/-- C187 (partial): a response that is not gzipped is sent whole exactly if nothing is logged, for requests and for calls. -/
theorem C187_sent_partial (N : NetExt) (tid accept : Str) (k : Nat) (breaks : Nat → Bool) (out : Bytes) (hne : out ≠ [])
    (hz : ¬(out.length > 16 * 1024 ∧ contains (lit "gzip") accept = true)) :
    (∃ ops, requestOps N tid accept (.ok out) = some ops ∧ chunks ops = [out] ∧ (requestLog N accept k breaks (.ok out) = [] ↔ through breaks 0 (chunks ops) = chunks ops)) ∧
    ∃ ops, callOps (.ok out) = some ops ∧ chunks ops = [out] ∧ (callLog breaks (.ok out) = [] ↔ through breaks 0 (chunks ops) = chunks ops) := by
  have hl : ¬ out.length = 0 := by simpa using hne
  have key : ∀ l : List Line, l = (if anyBreaks breaks 1 then [.unsent] else []) → (l = [] ↔ through breaks 0 [out] = [out]) := by
    intro l hl
    rw [hl, through_all]
    cases hb : anyBreaks breaks 1 with
    | false => simpa using (any_iff breaks 1).1 hb
    | true =>
      simp only [if_true, List.cons_ne_nil, List.length_cons, List.length_nil, false_iff]
      intro hn
      have := (any_iff breaks 1).2 (fun j hj => by simpa using hn j hj)
      rw [hb] at this; cases this
  refine ⟨⟨[.add (lit "Content-Type") (lit "application/json"), .write out], by simp only [requestOps, hl, hz, if_false], rfl, ?_⟩,
    ⟨[.header 200, .write out], by simp only [callOps, hl, if_false], rfl, ?_⟩⟩
  · refine key _ ?_
    simp only [requestLog, hl, hz, if_false]
  · refine key _ ?_
    simp only [callLog, hl, if_false]

/-- C187 (partial): of a gzipped response, what fails while it is compressed is logged. Missing: what fails when the rest is written (`C187_gzip_violated`). -/
theorem C187_gzip_partial (N : NetExt) (accept : Str) (k : Nat) (breaks : Nat → Bool) (out : Bytes)
    (hz : out.length > 16 * 1024 ∧ contains (lit "gzip") accept = true) :
    requestLog N accept k breaks (.ok out) = [] ↔ through breaks 0 ((N.gz out).take k) = (N.gz out).take k := by
  have hl : ¬ out.length = 0 := by omega
  rw [through_all]
  simp only [requestLog, hl, hz, if_false, and_self, if_true, List.length_take]
  cases hb : anyBreaks breaks (min k (N.gz out).length) with
  | false => simpa using (any_iff breaks _).1 hb
  | true =>
    simp only [if_true, List.cons_ne_nil, false_iff]
    intro hn
    have := (any_iff breaks (min k (N.gz out).length)).2 (fun j hj => by simpa using hn j hj)
    rw [hb] at this; cases this

/-- C187 (violated): a gzipped response can be cut short, its last chunk, which `Close` writes, being lost, without a line in the log. -/
theorem C187_gzip_violated (N : NetExt) (tid accept : Str) (k : Nat) (out : Bytes) (hz : out.length > 16 * 1024 ∧ contains (lit "gzip") accept = true) (hk : k < (N.gz out).length) :
    ∃ breaks ops, requestOps N tid accept (.ok out) = some ops ∧ chunks ops = N.gz out ∧ through breaks 0 (chunks ops) ≠ chunks ops ∧
      requestLog N accept k breaks (.ok out) = [] := by
  have hl : ¬ out.length = 0 := by omega
  refine ⟨fun i => i == k, .add (lit "Content-Type") (lit "application/json") :: .add (lit "Content-Encoding") (lit "gzip") :: (N.gz out).map .write,
    by simp only [requestOps, hl, hz, if_false, and_self, if_true], ?_, ?_, ?_⟩
  · simp only [chunks, List.filterMap_cons, Op.bytes?, List.filterMap_map]
    exact List.filterMap_some
  · rw [show chunks (Op.add (lit "Content-Type") (lit "application/json") :: Op.add (lit "Content-Encoding") (lit "gzip") :: (N.gz out).map Op.write) = N.gz out from by
      simp only [chunks, List.filterMap_cons, Op.bytes?, List.filterMap_map]; exact List.filterMap_some]
    intro h
    rw [through_all] at h
    have := h k hk
    simp at this
  · rw [C187_gzip_partial N accept k _ out hz, through_all]
    intro j hj
    simp only [List.length_take] at hj
    simp only [Nat.zero_add, beq_eq_false_iff_ne]
    omega

/-- C187 (violated): that an error could not be sent is not logged: the lines are the same whether its response gets through or not. -/
theorem C187_unsent_violated (N : NetExt) (tid accept : Str) (k : Nat) (e : Error) :
    ∃ ops breaks, requestOps N tid accept (.err e) = some ops ∧ through breaks 0 (chunks ops) ≠ chunks ops ∧
      requestLog N accept k breaks (.err e) = requestLog N accept k (fun _ => false) (.err e) := by
  refine ⟨_, fun _ => true, rfl, ?_, rfl⟩
  intro h
  have : ([] : List Bytes) = [_] := h
  cases this

/-! ### websockets -/

section
open Verif.Ws
variable {S A : Type}

/-- The lines written while a frame is handled, those of the loop aside (C144): a panic of a method is logged with level error, the error it returns is not, nor is that
of `Init`. http/ws/channel.go L36-54, http/ws/handler.go L119-132. -/
def frameLog (c : Ws.Conn S A) (f : Frame A) : List Line :=
  if f.type = lit "close" ∨ f.type = lit "new" ∨ f.type = lit "open" then []
  else
    match lookupKey f.channel c.chans with
    | some (.bound ms st) =>
      match lookupKey f.path ms with
      | some m => match (m st f.data).res with | .panic => [.panicked] | _ => []
      | none => []
    | _ => []

/-- C187 (violated): a method called over a websocket that returns an error, and an `Init` that does, leave no line in the log, and the connection goes on. -/
theorem C187_ws_violated (reg : Registry S A) (c : Ws.Conn S A) (f : Frame A) :
    (∀ ms st m v t, f.type ≠ lit "new" ∧ f.type ≠ lit "open" ∧ f.type ≠ lit "close" → lookupKey f.channel c.chans = some (.bound ms st) → lookupKey f.path ms = some m →
      (m st f.data).res = .err v t → frameLog c f = [] ∧ (onFrame reg c f).2 = .ok) ∧
    (∀ k s i v t, f.type = lit "new" ∨ f.type = lit "open" → lookupKey f.path reg = some k → k.fresh = some s → k.init = some i → (i s f.data).res = .err v t →
      frameLog c f = [] ∧ (onFrame reg c f).2 = .ok) := by
  refine ⟨?_, ?_⟩
  · intro ms st m v t hk hch hm hr
    obtain ⟨h1, h2, h3⟩ := hk
    refine ⟨by simp [frameLog, h1, h2, h3, hch, hm, hr], ?_⟩
    simp [onFrame, h1, h2, h3, hch, onData, hm, hr]
  · intro k s i v t hk hp hs hi hr
    have hc : f.type ≠ lit "close" := by rcases hk with h | h <;> rw [h] <;> decide
    refine ⟨by rcases hk with h | h <;> simp [frameLog, h], ?_⟩
    simp [onFrame, hk, hc, hp, openChan, hs, hi, hr]

/-- C187 (partial): a method that panics is logged, once, and the loop is told; and nothing else is logged as a panic. -/
theorem C187_panic_partial (reg : Registry S A) (c : Ws.Conn S A) (f : Frame A) :
    (∀ ms st m, f.type ≠ lit "new" ∧ f.type ≠ lit "open" ∧ f.type ≠ lit "close" → lookupKey f.channel c.chans = some (.bound ms st) → lookupKey f.path ms = some m →
      (m st f.data).res = .panic → frameLog c f = [.panicked]) ∧
    (Line.panicked ∈ frameLog c f → frameLog c f = [.panicked] ∧ (onFrame reg c f).2 = .err) := by
  refine ⟨?_, ?_⟩
  · rintro ms st m ⟨h1, h2, h3⟩ hch hm hr
    simp [frameLog, h1, h2, h3, hch, hm, hr]
  intro h
  unfold frameLog at h ⊢
  split at h
  · cases h
  · rename_i hk
    simp only [not_or] at hk
    rw [if_neg (by simp [hk])]
    split at h
    · rename_i ms st hch
      split at h
      · rename_i m hm
        split at h
        · rename_i hr
          simp [onFrame, hk, hch, onData, hm, hr]
        · cases h
      · cases h
    · cases h

end

/-! ### examples -/

/-- An API that fails inside, and a call that does. -/
example : requestLog NT [] 0 (fun _ => false) (readBody NT (fun _ => .err (.httpErr 503 none)) (some (some []))) = [.failed (lit "http: " ++ errText NT (.httpErr 503 none))] ∧
    callLog (fun _ => false) (.err (.httpErr 503 none)) = [] := ⟨rfl, rfl⟩

/-- Responses whose first write fails, and one that is empty. -/
example : requestLog NT [] 0 (· == 0) (.ok [1, 2]) = [.unsent] ∧ requestLog NT [] 0 (· == 1) (.ok [1, 2]) = [] ∧ requestLog NT [] 0 (· == 0) (.ok []) = [] ∧ callLog (· == 0) (.ok [1]) = [.unsent] ∧
    through (· == 1) 0 [[1], [2], [3]] = [[1]] := by decide

/-- A long response whose only chunk is written by `Close`, and is lost. -/
example : ∃ breaks ops, requestOps NT [] (lit "gzip") (.ok (List.replicate 20000 7)) = some ops ∧ chunks ops = [List.replicate 20000 7] ∧ through breaks 0 (chunks ops) ≠ chunks ops ∧
    requestLog NT (lit "gzip") 0 breaks (.ok (List.replicate 20000 7)) = [] :=
  C187_gzip_violated NT [] (lit "gzip") 0 _ ⟨by rw [List.length_replicate]; decide, by decide⟩ (by show 0 < 1; decide)

end Verif.Http.Logged

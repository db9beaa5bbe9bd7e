import Verif.Ws.Wire
import Verif.Ws.RpcProps
import Verif.Http.Props
/-!
# What websocket clients are told about errors (http/ws/reflect.go L45-61, channel.go L28-60, conn.go L58-67, enc/handler.go L175-197) (C175)

* `std` are the errors of Errors/Model.lean: those of the standard library, `ctx.Error` and `http.Error`. Those made by `errors.New`, `fmt.Errorf` and `errors.Join` are
  (pointers to) structs without exported fields. `own` is an error of another type: what `Error` returns, and its value, which may be of any type of the model of `enc`.
* A method is as in Rpc.lean, but with its error. `MustMarshal` panics if `Marshal` fails, and so does `Send` if the frame can not be marshalled or encoded.
* The texts `%q` makes of paths and channels are a parameter.
-/
set_option autoImplicit false
namespace Verif.Ws.Told
open Verif.Strconv Verif.Enc Verif.Ws Verif.Http

variable {X : Ext}

/-- An error as a value. ctx/error.go L27-31, http/error.go L18-21. -/
inductive Thrown (X : Ext) where
  | std (e : Http.Error)
  | own (text : Str) (t : Ty) (v : Val X t)

/-- `err.Error()`. ctx/error.go L33-35, http/error.go L23-28. -/
def Thrown.text (N : NetExt) : Thrown X → Str
  | .std e => errText N e
  | .own s _ _ => s

/-- `Marshal` of an error (enc/handler.go L187-190, L209-213, L262-302). -/
def errNode (N : NetExt) : Http.Error → Node X
  | .leaf _ _ | .wrap _ _ _ | .join _ _ _ => .pairs []
  | .ctxErr e _ _ => .str (errText N e)
  | .httpErr code none => .pairs [((lit "Code", lit "Code"), .int code), ((lit "Err", lit "Err"), .nil)]
  | .httpErr code (some e) => .pairs [((lit "Code", lit "Code"), .int code), ((lit "Err", lit "Err"), errNode N e)]

/-- The same for any error. enc/handler.go L175-302. -/
def Thrown.node (O : Order) (N : NetExt) : Thrown X → Res (Node X)
  | .std e => .ok (errNode N e)
  | .own _ t v => marshal O t v

/-- What becomes of the error of a method: the frames `return` and `error`, or a panic. reflect.go L46-54, channel.go L45-53. -/
def result (O : Order) (N : NetExt) (id path : Str) : Option (Thrown X) → MRes (Node X)
  | none => .ok
  | some e =>
    match e.node O N with
    | .ok n =>
      match sendText O ⟨id, path, lit "return", some n⟩ with
      | .ok _ => .err n (.str (lit "ws[" ++ id ++ lit "|" ++ path ++ lit "]: " ++ e.text N))
      | _ => .panic
    | _ => .panic

/-- A method of an object as the method of a channel. reflect.go L41-61. -/
def method {S : Type} (O : Order) (N : NetExt) (id path : Str) (run : S → Option (Node X) → S × List (Act (Node X)) × Option (Thrown X)) : Method S (Node X) :=
  fun s d => ⟨(run s d).1, (run s d).2.1, result O N id path (run s d).2.2⟩

/-- The error with which a frame ends the connection; `msg` are the texts. rpc.go L43-58, channel.go L28-60. -/
def ended {S N : Type} (msg : Frame N → String) (reg : Registry S N) (c : Conn S N) (f : Frame N) : Option Http.Error :=
  let unknown := some (Errors.newErrorf () () 20 (msg f) [])
  if f.type = lit "close" then none
  else if f.type = lit "new" ∨ f.type = lit "open" then
    match lookupKey f.path reg with
    | some _ => none
    | none => unknown
  else
    match lookupKey f.channel c.chans with
    | none | some .unbound => unknown
    | some (.bound ms st) =>
      match lookupKey f.path ms with
      | none => unknown
      | some m => match (m st f.data).res with
        | .panic => some (.leaf 21 "panic")
        | _ => none

/-- The frame with which the loop ends after an error; none: it panics instead. conn.go L60-67. -/
def disconnect (O : Order) (N : NetExt) (e : Thrown X) : Option (Frame (Node X)) :=
  match e.node O N with
  | .ok n =>
    match sendText O ⟨[], [], lit "disconnect", some n⟩ with
    | .ok _ => some ⟨[], [], lit "disconnect", some n⟩
    | _ => none
  | _ => none

/-! ### the property -/

/-- What a client should be told about an error with this text. -/
def tells (id path text : Str) : List (Frame (Node X)) :=
  [⟨id, path, lit "return", some (.str text)⟩, ⟨id, [], lit "error", some (.str (lit "ws[" ++ id ++ lit "|" ++ path ++ lit "]: " ++ text))⟩]

/-- The peer reads the frame as it was sent. -/
def Read (O O' : Order) (f : Frame (Node X)) : Prop := ∃ s, sendText O f = .ok s ∧ recvText O' s = .done f.val

/-- An error of the standard library: made by `errors.New`, `fmt.Errorf` or `errors.Join`. -/
def Plain : Http.Error → Prop
  | .leaf _ _ | .wrap _ _ _ | .join _ _ _ => True
  | _ => False

/-! ### lemmas -/

theorem read_str (hX : Laws X) (O O' : Order) (id path type t : Str) (ht : t ≠ []) : Read (X := X) O O' ⟨id, path, type, some (.str t)⟩ := by
  obtain ⟨s, h1, h2⟩ := C63_arrives_partial hX O O' (⟨id, path, type, some (.str t)⟩ : Frame (Node X)) (fun n hn => by
    injection hn with hn; subst hn; exact ⟨trivial, rfl, by show 0 < maxDepth; decide⟩)
  refine ⟨s, h1, ?_⟩
  rw [h2]
  cases t with
  | nil => exact absurd rfl ht
  | cons => rfl

theorem sends (hX : Laws X) (O : Order) (f : Frame (Node X)) (n : Node X) (hf : f.data = some n) (h : n.WF ∧ n.encodable = true ∧ n.depth < maxDepth) : ∃ s, sendText O f = .ok s := by
  obtain ⟨s, h1, _⟩ := C63_arrives_partial hX O O f (fun m hm => by rw [hf] at hm; injection hm with hm; subst hm; exact h)
  exact ⟨s, h1⟩

theorem node_plain (N : NetExt) (e : Http.Error) (h : Plain e) : errNode (X := X) N e = .pairs [] := by
  cases e <;> first | rfl | exact absurd h id

theorem empty_good : (Node.pairs [] : Node X).WF ∧ (Node.pairs [] : Node X).encodable = true ∧ (Node.pairs [] : Node X).depth < maxDepth := by
  refine ⟨trivial, rfl, ?_⟩
  show 1 < maxDepth
  decide

theorem is_errorf (id : Nat) (msg : String) : ∀ ws : List Http.Error, (Errors.errorf id msg ws).is .ctxError = Errors.isAny .ctxError ws
  | [] => rfl
  | [e] => by simp [Errors.errorf, Errors.Err.is, Errors.isAny]
  | e :: e' :: l => by simp [Errors.errorf, Errors.Err.is]

theorem isAny_iff : ∀ ws : List Http.Error, Errors.isAny .ctxError ws = true ↔ ∃ e ∈ ws, e.is .ctxError = true
  | [] => by simp [Errors.isAny]
  | e :: l => by simp [Errors.isAny, isAny_iff l]

theorem plain_errorf (id : Nat) (msg : String) : ∀ ws : List Http.Error, Plain (Errors.errorf id msg ws) ∧ ∀ N, errText N (Errors.errorf id msg ws) = msg.toList
  | [] => ⟨trivial, fun _ => rfl⟩
  | [_] => ⟨trivial, fun _ => rfl⟩
  | _ :: _ :: _ => ⟨trivial, fun _ => rfl⟩


theorem result_str (hX : Laws X) (O : Order) (N : NetExt) (id path : Str) (e : Thrown X) (n : Node X) (hn : e.node O N = .ok n) (h : n.WF ∧ n.encodable = true ∧ n.depth < maxDepth) :
    result O N id path (some e) = .err n (.str (lit "ws[" ++ id ++ lit "|" ++ path ++ lit "]: " ++ e.text N)) := by
  obtain ⟨s, hs⟩ := sends hX O ⟨id, path, lit "return", some n⟩ n rfl h
  simp only [result, hn, hs]

section
variable {S : Type}

/-- A call on an open connection, of a method that replies and then fails with `e`. reflect.go L41-61, channel.go L28-60. -/
structure Fails (O : Order) (N : NetExt) (c : Conn S (Node X)) (f : Frame (Node X)) (replies : List (Str × Node X)) (e : Thrown X) : Prop where
  kind : f.type ≠ lit "new" ∧ f.type ≠ lit "open" ∧ f.type ≠ lit "close"
  isOpen : c.closed = false
  bound : ∃ ms st run, lookupKey f.channel c.chans = some (.bound ms st) ∧ lookupKey f.path ms = some (method O N f.channel f.path run) ∧
    (run st f.data).2.1 = replies.map (fun r => .reply r.1 r.2) ∧ (run st f.data).2.2 = some e

theorem fails_out {O : Order} {N : NetExt} {c : Conn S (Node X)} {f : Frame (Node X)} {replies : List (Str × Node X)} {e : Thrown X} (h : Fails O N c f replies e) (reg : Registry S (Node X)) :
    (onFrame reg c f).1.out = c.out ++ replies.map (fun r => ⟨f.channel, r.1, [], some r.2⟩) ++
      (match result O N f.channel f.path (some e) with
        | .ok => [⟨f.channel, f.path, lit "return", none⟩]
        | .err v t => [⟨f.channel, f.path, lit "return", some v⟩, ⟨f.channel, [], lit "error", some t⟩]
        | .panic => []) ∧
    (onFrame reg c f).2 = (match result O N f.channel f.path (some e) with | .ok => .ok | .err _ _ => .ok | .panic => .err) := by
  obtain ⟨hk, ho, ms, st, run, hch, hm, ha, he⟩ := h
  obtain ⟨-, h2, h3⟩ := C61_call reg c f hk ms st hch _ hm
  have hacts : (method O N f.channel f.path run st f.data).acts = replies.map (fun r => .reply r.1 r.2) := ha
  have hres : (method O N f.channel f.path run st f.data).res = result O N f.channel f.path (some e) := by
    show result O N f.channel f.path (run st f.data).2.2 = _
    rw [he]
  obtain ⟨rs, hrs, hout⟩ := h2 ho (by
    rw [hacts]; intro a ha
    obtain ⟨r, -, rfl⟩ := List.mem_map.1 ha
    exact ⟨_, _, rfl⟩)
  have hinj : ∀ l l' : List (Str × Node X), l.map (fun r => Act.reply r.1 r.2) = l'.map (fun r => Act.reply r.1 r.2) → l = l' := by
    intro l
    induction l with
    | nil => intro l' h; cases l' with | nil => rfl | cons => simp at h
    | cons a l ih =>
      intro l' h
      cases l' with
      | nil => simp at h
      | cons b l' =>
        simp only [List.map_cons, List.cons.injEq, Act.reply.injEq] at h
        rw [ih l' h.2, Prod.ext h.1.1 h.1.2]
  have : rs = replies := hinj _ _ (hrs.symm.trans hacts)
  subst this
  rw [hres] at hout h3
  cases hx : result O N f.channel f.path (some e) <;> simp only [hx] at hout h3 <;> exact ⟨hout, h3⟩

/-! ### theorems -/

/-- A method that fails with an error of `ctx`: the client is sent its text twice, with the `return` and with the `error`, after the replies; the connection goes on; and both frames
can be read. Missing: all the other errors, see below; and a text that is empty does not arrive (C63). -/
theorem C175_text_partial (hX : Laws X) (O O' : Order) (N : NetExt) (reg : Registry S (Node X)) (c : Conn S (Node X)) (f : Frame (Node X)) (replies : List (Str × Node X)) (e : Http.Error)
    (h : Fails O N c f replies (.std (.ctxErr e () ()))) (ht : errText N e ≠ []) :
    (onFrame reg c f).1.out = c.out ++ replies.map (fun r => ⟨f.channel, r.1, [], some r.2⟩) ++ tells f.channel f.path (errText N e) ∧ (onFrame reg c f).2 = .ok ∧
    ∀ fr ∈ tells (X := X) f.channel f.path (errText N e), Read O O' fr := by
  have hr := result_str hX O N f.channel f.path (.std (.ctxErr e () ())) (.str (errText N e)) rfl ⟨trivial, rfl, by show 0 < maxDepth; decide⟩
  obtain ⟨h1, h2⟩ := fails_out h reg
  simp only [hr] at h1 h2
  refine ⟨h1, h2, ?_⟩
  intro fr hfr
  simp only [tells, List.mem_cons, List.not_mem_nil, or_false] at hfr
  rcases hfr with rfl | rfl
  · exact read_str hX O O' _ _ _ _ ht
  · exact read_str hX O O' _ _ _ _ (by simp [ht])

/-- `ctx.NewErrorf` makes such errors, unless one of the errors it wraps is (or wraps) one already; and so does `ctx.WrapError`. -/
theorem C175_new_partial (N : NetExt) (id : Nat) (msg : String) (ws : List Http.Error) :
    ((∀ e ∈ ws, e.is .ctxError = false) → errNode (X := X) N (Errors.newErrorf () () id msg ws) = .str msg.toList) ∧
    ∀ e : Http.Error, e.is .ctxError = false → errNode (X := X) N (Errors.maybeWrap () () e) = .str (errText N e) := by
  constructor
  · intro h
    have : (Errors.errorf id msg ws).is .ctxError = false := by
      rw [is_errorf, Bool.eq_false_iff]
      intro hc
      obtain ⟨e, he, ht⟩ := (isAny_iff ws).1 hc
      rw [h e he] at ht; cases ht
    simp only [Errors.newErrorf, Errors.maybeWrap, this, Bool.false_eq_true, if_false, errNode, (plain_errorf id msg ws).2]
  · intro e h
    simp only [Errors.maybeWrap, h, Bool.false_eq_true, if_false, errNode]

/-- An error that wraps an error of `ctx`, whatever its message, is sent as an empty object: so is every argument that can not be read (reflect.go L76-78). -/
theorem C175_argument_violated (N : NetExt) (id : Nat) (msg : String) (ws : List Http.Error) (h : ∃ e ∈ ws, e.is .ctxError = true) :
    errNode (X := X) N (Errors.newErrorf () () id msg ws) = .pairs [] := by
  have : (Errors.errorf id msg ws).is .ctxError = true := by rw [is_errorf]; exact (isAny_iff ws).2 h
  simp only [Errors.newErrorf, Errors.maybeWrap, this, if_true]
  exact node_plain N _ (plain_errorf id msg ws).1

/-- With an error of the standard library the caller gets an empty object, whatever the error was: the text is only in the `error` frame, which does not say which call it is about
except in its text. -/
theorem C175_plain_violated (hX : Laws X) (O O' : Order) (N : NetExt) (reg : Registry S (Node X)) (c : Conn S (Node X)) (f : Frame (Node X)) (replies : List (Str × Node X)) (e : Http.Error)
    (he : Plain e) (h : Fails O N c f replies (.std e)) :
    (onFrame reg c f).1.out = c.out ++ replies.map (fun r => ⟨f.channel, r.1, [], some r.2⟩) ++
      [⟨f.channel, f.path, lit "return", some (.pairs [])⟩, ⟨f.channel, [], lit "error", some (.str (lit "ws[" ++ f.channel ++ lit "|" ++ f.path ++ lit "]: " ++ errText N e))⟩] ∧
    (∃ s, sendText (X := X) O ⟨f.channel, f.path, lit "return", some (.pairs [])⟩ = .ok s ∧
      recvText O' s = .done (Frame.val (X := X) ⟨f.channel, f.path, lit "return", some (.map [])⟩)) := by
  have hg := empty_good (X := X)
  have hr := result_str hX O N f.channel f.path (.std e) (.pairs []) (by simp only [Thrown.node, node_plain N e he]) hg
  obtain ⟨h1, -⟩ := fails_out h reg
  simp only [hr] at h1
  refine ⟨h1, ?_⟩
  obtain ⟨s, k1, k2⟩ := C63_arrives_partial hX O O' (⟨f.channel, f.path, lit "return", some (.pairs [])⟩ : Frame (Node X)) (fun n hn => by injection hn with hn; subst hn; exact hg)
  exact ⟨s, k1, k2⟩

/-- What the client is told of an internal error is its text: two that http answers alike (C56_no_leak) are told apart by their frames. -/
theorem C175_internal_violated (hX : Laws X) (O : Order) (N : NetExt) (reg : Registry S (Node X)) (c c' : Conn S (Node X)) (f : Frame (Node X)) (e e' : Http.Error)
    (h : Fails O N c f [] (.std (.ctxErr e () ()))) (h' : Fails O N c' f [] (.std (.ctxErr e' () ()))) (hc : c.out = c'.out) (hne : errText N e ≠ errText N e') :
    (onFrame reg c f).1.out ≠ (onFrame reg c' f).1.out ∧
    ∀ (tid accept accept' : Str) (b b' : Bytes), Errors.errorCode (some e) 500 = Errors.errorCode (some e') 500 → 500 ≤ Errors.errorCode (some e) 500 →
      handleRequest N tid accept (fun _ => .err (.ctxErr e () ())) (some (some b)) = handleRequest N tid accept' (fun _ => .err (.ctxErr e' () ())) (some (some b')) := by
  constructor
  · intro heq
    have k := fun e => result_str hX O N f.channel f.path (.std (.ctxErr e () ())) (.str (errText N e)) rfl ⟨trivial, rfl, by show 0 < maxDepth; decide⟩
    have h1 := (fails_out h reg).1
    have h2 := (fails_out h' reg).1
    simp only [k] at h1 h2
    rw [h1, h2, hc] at heq
    simp at heq
    exact hne heq.1
  · intro tid accept accept' b b' hcode h5
    exact C56_no_leak N N tid accept accept' _ _ _ _ (.ctxErr e () ()) (.ctxErr e' () ()) rfl rfl hcode h5

/-- Of an error of a type of its own the client gets the value, if it can be sent: all its exported fields (enc/handler.go L277-316), and not its text. -/
theorem C175_own_violated (hX : Laws X) (O : Order) (N : NetExt) (reg : Registry S (Node X)) (c : Conn S (Node X)) (f : Frame (Node X)) (replies : List (Str × Node X)) (text : Str) (t : Ty) (v : Val X t)
    (n : Node X) (hn : marshal O t v = .ok n) (hg : n.WF ∧ n.encodable = true ∧ n.depth < maxDepth) (h : Fails O N c f replies (.own text t v)) :
    (⟨f.channel, f.path, lit "return", some n⟩ : Frame (Node X)) ∈ (onFrame reg c f).1.out := by
  have hr := result_str hX O N f.channel f.path (.own text t v) n hn hg
  have h1 := (fails_out h reg).1
  simp only [hr] at h1
  rw [h1]; simp

/-- If the value can not be marshalled, the method's error ends the whole connection, with all its channels: nothing is sent about the call, and the last frame has an empty object. -/
theorem C175_unsent_violated (hX : Laws X) (O : Order) (N : NetExt) (reg : Registry S (Node X)) (msg : Frame (Node X) → String) (c : Conn S (Node X)) (f : Frame (Node X))
    (replies : List (Str × Node X)) (text : Str) (t : Ty) (v : Val X t) (hn : ∀ n, marshal O t v ≠ .ok n) (h : Fails O N c f replies (.own text t v)) :
    (onFrame reg c f).1.out = c.out ++ replies.map (fun r => ⟨f.channel, r.1, [], some r.2⟩) ∧ (onFrame reg c f).2 = .err ∧
    ∃ e, ended msg reg c f = some e ∧ disconnect (X := X) O N (.std e) = some ⟨[], [], lit "disconnect", some (.pairs [])⟩ := by
  have hr : result O N f.channel f.path (some (.own text t v)) = .panic := by
    simp only [result, Thrown.node]
  obtain ⟨h1, h2⟩ := fails_out h reg
  simp only [hr, List.append_nil] at h1 h2
  refine ⟨h1, h2, .leaf 21 "panic", ?_, ?_⟩
  · obtain ⟨hk, -, ms, st, run, hch, hm, -, he⟩ := h
    have hres : (method O N f.channel f.path run st f.data).res = .panic := by
      show result O N f.channel f.path (run st f.data).2.2 = _
      rw [he, hr]
    simp [ended, hk, hch, hm, hres]
  · obtain ⟨s, hs⟩ := sends hX O (⟨[], [], lit "disconnect", some (.pairs [])⟩ : Frame (Node X)) (.pairs []) rfl empty_good
    simp only [disconnect, Thrown.node, errNode, hs]

/-- The frames that end a connection: those for a path, a channel or a method that does not exist, and the client is told so; and those whose method panics, and it is told nothing. -/
theorem C175_disconnect_partial (hX : Laws X) (O : Order) (N : NetExt) (reg : Registry S (Node X)) (msg : Frame (Node X) → String) (c : Conn S (Node X)) (f : Frame (Node X)) :
    ((onFrame reg c f).2 = .err ↔ (ended msg reg c f).isSome = true) ∧
    ∀ e, ended msg reg c f = some e → disconnect (X := X) O N (.std e) = some ⟨[], [], lit "disconnect", some (.str (msg f).toList)⟩ ∨
      ((∃ ms st m, lookupKey f.channel c.chans = some (.bound ms st) ∧ lookupKey f.path ms = some m ∧ (m st f.data).res = .panic) ∧
        disconnect (X := X) O N (.std e) = some ⟨[], [], lit "disconnect", some (.pairs [])⟩) := by
  have hu : disconnect (X := X) O N (.std (Errors.newErrorf () () 20 (msg f) [])) = some ⟨[], [], lit "disconnect", some (.str (msg f).toList)⟩ := by
    obtain ⟨s, hs⟩ := sends hX O (⟨[], [], lit "disconnect", some (.str (msg f).toList)⟩ : Frame (Node X)) (.str (msg f).toList) rfl ⟨trivial, rfl, by show 0 < maxDepth; decide⟩
    simp only [disconnect, Thrown.node, (C175_new_partial N 20 (msg f) []).1 (by simp), hs]
  have hp : disconnect (X := X) O N (.std (.leaf 21 "panic")) = some ⟨[], [], lit "disconnect", some (.pairs [])⟩ := by
    obtain ⟨s, hs⟩ := sends hX O (⟨[], [], lit "disconnect", some (.pairs [])⟩ : Frame (Node X)) (.pairs []) rfl empty_good
    simp only [disconnect, Thrown.node, errNode, hs]
  by_cases h1 : f.type = lit "close"
  · simp [ended, onFrame, h1]
  · by_cases h2 : f.type = lit "new" ∨ f.type = lit "open"
    · cases hl : lookupKey f.path reg with
      | none => simp [ended, onFrame, h1, h2, hl, hu]
      | some k =>
        simp only [ended, onFrame, h1, h2, hl, if_false, if_true, openChan]
        constructor
        · cases k.fresh with
          | none => simp
          | some s =>
            cases k.init with
            | none => simp
            | some i => cases hr : (i s f.data).res <;> simp [hr]
        · intro e he; cases he
    · cases hl : lookupKey f.channel c.chans with
      | none => simp [ended, onFrame, h1, h2, hl, hu]
      | some ch =>
        cases ch with
        | unbound => simp [ended, onFrame, onData, h1, h2, hl, hu]
        | bound ms st =>
          cases hm : lookupKey f.path ms with
          | none => simp [ended, onFrame, onData, h1, h2, hl, hm, hu]
          | some m =>
            cases hr : (m st f.data).res with
            | ok => simp [ended, onFrame, onData, h1, h2, hl, hm, hr]
            | err => simp [ended, onFrame, onData, h1, h2, hl, hm, hr]
            | panic =>
              refine ⟨by simp [ended, onFrame, onData, h1, h2, hl, hm, hr], ?_⟩
              intro e he
              simp only [ended, h1, h2, hl, hm, hr, if_false, Option.some.injEq] at he
              subst he
              exact .inr ⟨⟨ms, st, m, rfl, hm, hr⟩, hp⟩

end

/-- With `http.NewErrorf` the caller gets an object with the code and the text. -/
theorem C175_http_violated (N : NetExt) (code : Int) (id : Nat) (msg : String) (ws : List Http.Error) (h : ∀ e ∈ ws, e.is .ctxError = false) :
    errNode (X := X) N (Errors.httpNewErrorf () () code id msg ws) = .pairs [((lit "Code", lit "Code"), .int code), ((lit "Err", lit "Err"), .str msg.toList)] := by
  simp only [Errors.httpNewErrorf, errNode, (C175_new_partial N id msg ws).1 h]

/-- An error that a handler of its own returns to the loop and that can not be marshalled: the peer is not told that the connection ends (conn.go L60-67). -/
theorem C175_silent_violated (O : Order) (N : NetExt) (text : Str) (t : Ty) (v : Val X t) (hn : ∀ n, marshal O t v ≠ .ok n) : disconnect O N (.own text t v) = none := by
  simp only [disconnect, Thrown.node]

/-! ### examples -/

/-- A counter with a method that fails with `e`. -/
def failing (N : NetExt) (e : Thrown XT) : Conn Nat (Node XT) :=
  { chans := [(lit "7", .bound [(lit "inc", method sortedOrder N (lit "7") (lit "inc") (fun s _ => (s + 1, [], some e)))] 0)] }

theorem failing_fails (N : NetExt) (e : Thrown XT) : Fails sortedOrder N (failing N e) ⟨lit "7", lit "inc", lit "data", none⟩ [] e :=
  ⟨by decide, rfl, _, 0, _, rfl, rfl, rfl, rfl⟩

theorem joined : lit "ws[" ++ lit "7" ++ lit "|" ++ lit "inc" ++ lit "]: " ++ lit "too many" = lit "ws[7|inc]: too many" := by decide

/-- `ctx.NewErrorf(c, "too many")`: told twice. -/
example (N : NetExt) : (onFrame [] (failing N (.std (Errors.newErrorf () () 1 "too many" []))) ⟨lit "7", lit "inc", lit "data", none⟩).1.out =
    [⟨lit "7", lit "inc", lit "return", some (.str (lit "too many"))⟩, ⟨lit "7", [], lit "error", some (.str (lit "ws[7|inc]: too many"))⟩] := by
  rw [← joined]
  exact (C175_text_partial XT_laws sortedOrder sortedOrder N [] _ _ [] (.leaf 1 "too many") (failing_fails N _) (by show (lit "too many") ≠ []; decide)).1

/-- `errors.New("too many")`: an empty object. -/
example (N : NetExt) : (onFrame [] (failing N (.std (.leaf 1 "too many"))) ⟨lit "7", lit "inc", lit "data", none⟩).1.out =
    [⟨lit "7", lit "inc", lit "return", some (.pairs [])⟩, ⟨lit "7", [], lit "error", some (.str (lit "ws[7|inc]: too many"))⟩] := by
  rw [← joined]
  exact (C175_plain_violated XT_laws sortedOrder sortedOrder N [] _ _ [] (.leaf 1 "too many") trivial (failing_fails N _)).1

/-- An argument that is not an integer: an empty object. -/
example (N : NetExt) : errNode (X := XT) N (Errors.newErrorf () () 2 "reflect[inc].argument: not an integer" [Errors.newErrorf () () 1 "not an integer" []]) = .pairs [] :=
  C175_argument_violated N 2 _ _ ⟨_, List.mem_singleton.2 rfl, rfl⟩

/-- A failed read, with the name of the file and how to try again: `type failure struct { File string; Retry func() }`. -/
def failure : Ty := .struct (.cons { name := lit "File" } .string (.cons { name := lit "Retry" } .func .nil))

/-- Its value. -/
def failed : Val XT failure := ((lit "/etc/key", some 1, ()) : FVals XT (.cons { name := lit "File" } .string (.cons { name := lit "Retry" } .func .nil)))

theorem failed_unsent : marshal (X := XT) sortedOrder failure failed = .err := by decide +kernel

/-- The connection ends. -/
example (N : NetExt) : (onFrame [] (failing N (.own (lit "no such file") failure failed)) ⟨lit "7", lit "inc", lit "data", none⟩).1.out = [] ∧
    (onFrame [] (failing N (.own (lit "no such file") failure failed)) ⟨lit "7", lit "inc", lit "data", none⟩).2 = .err :=
  have h := C175_unsent_violated XT_laws sortedOrder N [] (fun _ => "") _ _ [] (lit "no such file") failure failed (by intro n; rw [failed_unsent]; exact nofun) (failing_fails N _)
  ⟨h.1, h.2.1⟩

/-- Without the function the client is sent the path of the file. -/
example (N : NetExt) : (⟨lit "7", lit "inc", lit "return", some (.pairs [((lit "File", lit "File"), .str (lit "/etc/key"))])⟩ : Frame (Node XT)) ∈
    (onFrame [] (failing N (.own (lit "no such file") (.struct (.cons { name := lit "File" } .string .nil)) ((lit "/etc/key", ()) : FVals XT (.cons { name := lit "File" } .string .nil))))
      ⟨lit "7", lit "inc", lit "data", none⟩).1.out :=
  C175_own_violated XT_laws sortedOrder N [] _ _ [] _ _ _ _ (by decide +kernel) ⟨by simp [Node.WF, Node.pairsWF], rfl, by decide⟩ (failing_fails N _)

end Verif.Ws.Told

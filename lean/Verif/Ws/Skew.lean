import Verif.Ws.Session
import Verif.Ws.InspectProps
import Verif.Enc.Versions
import Verif.Enc.GoodLemmas
/-!
# Websockets between releases (C189): http/ws/channel.go, reflect.go, rpc.go

A client and a server that were built from different versions of the code: the types of the arguments and replies are versions of each other (Enc/Versions.lean), methods may have gained or lost
their argument, and there may be methods one of the two does not know. Everything goes over the wire as the text of a frame.
-/
set_option autoImplicit false
namespace Verif.Ws.Skew
open Verif.Strconv Verif.Enc Verif.Enc.Versions Verif.Ws Verif.Ws.Session Verif.Ws.Inspect

section
variable {X : Ext}

/-- The types for which nothing at all is read as zero. enc/handler.go L51-160. -/
def HasZero : Ty → Prop
  | .int _ | .uint _ | .float64 | .float32 | .bool | .string | .ptr _ | .slice _ | .map _ _ | .struct _ => True
  | .any | .node | .time | .encTime | .encDur | .func | .chan | .iface | .array _ _ => False

/-- Data a client sends as a value of type `t`: what the value is marshalled to, not too deep, and no empty text unless the type is that of texts (C63). channel.go L62-72. -/
structure Sendable (O : Order) (t : Ty) (v : Val X t) (n : Node X) : Prop where
  faithful : Faithful true t v
  marshals : marshal O t v = .ok n
  depth : n.depth < maxDepth
  full : n.norm = .str [] → t = .string

theorem lenient : Lenient (⟨none⟩ : Handler X) := fun _ h => by cases h

/-- What arrives is read as another version of the value. -/
theorem read_arrives (hX : Laws X) (O O' : Order) (t t' : Ty) (hv : Version t t') (v : Val X t) (n : Node X) (h : Sendable O t v n) :
    ((⟨none⟩ : Handler X).unmarshal O' t' (arrives (some n)) (zero X t')).st = .ok ∧ Seen t t' v ((⟨none⟩ : Handler X).unmarshal O' t' (arrives (some n)) (zero X t')).val := by
  obtain ⟨n', h1, h2⟩ := round hX true O O' ⟨none⟩ t v h.faithful
  rw [h.marshals] at h1
  injection h1 with h1
  subst h1
  have key := (carry hX true O O' ⟨none⟩ lenient t v n h.faithful h.marshals).2 t' hv
  rw [h2] at key
  change ((unmarshal ⟨none⟩ O' t' n.norm (zero X t')).st = .ok ∧ Seen t t' v (unmarshal ⟨none⟩ O' t' n.norm (zero X t')).val) at key
  show (unmarshal _ O' t' ((arrives (some n)).getD .nil) (zero X t')).st = .ok ∧ Seen t t' v (unmarshal _ O' t' ((arrives (some n)).getD .nil) (zero X t')).val
  by_cases hs : n.norm = .str []
  · have ht := h.full hs
    subst ht
    have ha : arrives (some n) = none := by simp [arrives, hs]
    rw [hs] at key
    rw [ha]
    cases hv with
    | same _ _ => exact key
  · by_cases hn : n.norm = .nil
    · have ha : arrives (some n) = none := by simp [arrives, hn]
      rw [hn] at key
      rw [ha]
      exact key
    · have ha : arrives (some n) = some n.norm := by
        simp only [arrives]
      rw [ha]
      exact key

/-- The text of the frame is sent and handled as what arrives. -/
theorem handled (hX : Laws X) {S : Type} (O O' : Order) (t : Ty) (v : Val X t) (n : Node X) (h : Sendable O t v n) (ch p ty : Str) (reg : Registry S (Node X)) (c : Conn S (Node X)) :
    ∃ s k, sendText O ⟨ch, p, ty, some n⟩ = .ok s ∧ decode (X := X) s = some k ∧ onText reg O' c k = onFrame reg c ⟨ch, p, ty, arrives (some n)⟩ := by
  obtain ⟨hwf, he⟩ := marshal_good hX O t v n h.faithful h.marshals
  exact onText_sent hX reg O' O c ⟨ch, p, ty, some n⟩ (fun m hm => by
    injection hm with hm
    subst hm
    exact ⟨hwf, he (Nat.le_of_lt h.depth), h.depth⟩)

/-- C189: a reply, sent as one version of a type, is read by the client as another one. -/
theorem C189_reply_partial (hX : Laws X) (O O' : Order) (t t' : Ty) (hv : Version t t') (v : Val X t) (n : Node X) (h : Sendable O t v n) (ch p : Str) :
    ∃ s d, sendText O ⟨ch, p, [], some n⟩ = .ok s ∧ recvText O' s = .done (Frame.val ⟨ch, p, [], d⟩) ∧
      ((⟨none⟩ : Handler X).unmarshal O' t' d (zero X t')).st = .ok ∧ Seen t t' v ((⟨none⟩ : Handler X).unmarshal O' t' d (zero X t')).val := by
  obtain ⟨hwf, he⟩ := marshal_good hX O t v n h.faithful h.marshals
  obtain ⟨s, h1, h2⟩ := C63_arrives_partial hX O O' ⟨ch, p, [], some n⟩ (fun m hm => by
    injection hm with hm
    subst hm
    exact ⟨hwf, he (Nat.le_of_lt h.depth), h.depth⟩)
  exact ⟨s, arrives (some n), h1, h2, read_arrives hX O O' t t' hv v n h⟩

end

section
variable {X : Ext} {V : Type} [DecidableEq V] (fault : Str → Option (Node X) → Node X × Node X)

/-- What a call has done: the object is as the method left it, and if all it did on the connection was to reply, and it returned no error, the replies and the end of the call are sent. -/
def Called (c c' : Conn (List V) (Node X)) (res : HRes) (ch p : Str) (ms : List (Str × Method (List V) (Node X))) (r : Ran (List V) (Node X)) : Prop :=
  lookupKey ch c'.chans = some (.bound ms r.st) ∧
  (r.ret = .none ∨ r.ret = .nil → res = .ok ∧ ∀ replies : List (Str × Node X), c.closed = false → r.acts = replies.map (fun x => .reply x.1 x.2) →
    c'.out = c.out ++ replies.map (fun x => ⟨ch, x.1, [], some x.2⟩) ++ [⟨ch, p, lit "return", none⟩])

omit [DecidableEq V] in
theorem called_of {reg : Registry (List V) (Node X)} {c : Conn (List V) (Node X)} {f : Frame (Node X)} (ht : f.type ≠ lit "new" ∧ f.type ≠ lit "open" ∧ f.type ≠ lit "close")
    {ms : List (Str × Method (List V) (Node X))} {st : List V} (hch : lookupKey f.channel c.chans = some (.bound ms st)) {m : Method (List V) (Node X)} (hm : lookupKey f.path ms = some m)
    {r : Ran (List V) (Node X)} (hd : Does r (m st f.data)) : Called c (onFrame reg c f).1 (onFrame reg c f).2 f.channel f.path ms r := by
  obtain ⟨d1, d2, d3, -⟩ := hd
  obtain ⟨g1, g2, g3⟩ := C61_call reg c f ht ms st hch m hm
  refine ⟨by rw [g1, d1], fun hr => ?_⟩
  have hres := d3 hr
  rw [hres] at g2 g3
  refine ⟨g3, fun replies hc ha => ?_⟩
  obtain ⟨rs, e1, e2⟩ := g2 hc (by rw [d2, ha]; intro a h; obtain ⟨x, -, rfl⟩ := List.mem_map.1 h; exact ⟨_, _, rfl⟩)
  have inj : ∀ (l l' : List (Str × Node X)), l.map (fun x => (Act.reply x.1 x.2 : Act (Node X))) = l'.map (fun x => .reply x.1 x.2) → l = l' := by
    intro l
    induction l with
    | nil => intro l' h; cases l' with | nil => rfl | cons _ _ => simp at h
    | cons a l ih =>
      intro l' h
      cases l' with
      | nil => simp at h
      | cons a' l' =>
        simp only [List.map_cons, List.cons.injEq, Act.reply.injEq] at h
        rw [ih l' h.2, show a = a' from Prod.ext h.1.1 h.1.2]
  rw [d2, ha] at e1
  rw [e2, inj _ _ e1]

/-- C189: a method is called with what is left of the client's argument in the server's version of its type. -/
theorem C189_call_partial (hX : Laws X) (O O' : Order) (T : TypeDecl X V) (hT : Proper T) (vals cur : List V) (b : Builder X V) (hb : inspect (.ptr T vals) = .ok b)
    (m : Decl X (List V)) (hm : m ∈ T.methods) (hc : Callable m) (p : Str) (hp : Named m.name p) (q r : Param) (hq : m.params = [q, r]) (hva : m.variadic = false)
    (t : Ty) (hv : Version t r.ty) (v : Val X t) (n : Node X) (hn : Sendable O t v n)
    (reg : Registry (List V) (Node X)) (c : Conn (List V) (Node X)) (ch ty : Str) (ht : ty ≠ lit "new" ∧ ty ≠ lit "open" ∧ ty ≠ lit "close") (st : List V)
    (hch : lookupKey ch c.chans = some (.bound (b.toClass O' fault cur).methods st)) :
    ∃ s k v', sendText O ⟨ch, p, ty, some n⟩ = .ok s ∧ decode (X := X) s = some k ∧ Seen t r.ty v v' ∧
      Called c (onText reg O' c k).1 (onText reg O' c k).2 ch p (b.toClass O' fault cur).methods (m.run st [⟨r.ty, v'⟩]) := by
  obtain ⟨s, k, h1, h2, h3⟩ := handled hX O O' t v n hn ch p ty reg c
  obtain ⟨r1, r2⟩ := read_arrives hX O O' t r.ty hv v n hn
  obtain ⟨f, hf, hcalls⟩ := C148_call_partial O' fault T hT vals cur b hb m hm hc p hp
  refine ⟨s, k, _, h1, h2, r2, ?_⟩
  rw [h3]
  exact called_of (f := ⟨ch, p, ty, arrives (some n)⟩) ht hch hf (((hcalls st (arrives (some n))).2 q r hq hva).1 r1)

/-- C189: a method that has lost its argument is called, whatever older clients send. -/
theorem C189_lost_partial (hX : Laws X) (O O' : Order) (T : TypeDecl X V) (hT : Proper T) (vals cur : List V) (b : Builder X V) (hb : inspect (.ptr T vals) = .ok b)
    (m : Decl X (List V)) (hm : m ∈ T.methods) (hc : Callable m) (p : Str) (hp : Named m.name p) (q : Param) (hq : m.params = [q])
    (t : Ty) (v : Val X t) (n : Node X) (hn : Sendable O t v n)
    (reg : Registry (List V) (Node X)) (c : Conn (List V) (Node X)) (ch ty : Str) (ht : ty ≠ lit "new" ∧ ty ≠ lit "open" ∧ ty ≠ lit "close") (st : List V)
    (hch : lookupKey ch c.chans = some (.bound (b.toClass O' fault cur).methods st)) :
    ∃ s k, sendText O ⟨ch, p, ty, some n⟩ = .ok s ∧ decode (X := X) s = some k ∧
      Called c (onText reg O' c k).1 (onText reg O' c k).2 ch p (b.toClass O' fault cur).methods (m.run st []) := by
  obtain ⟨s, k, h1, h2, h3⟩ := handled hX O O' t v n hn ch p ty reg c
  obtain ⟨f, hf, hcalls⟩ := C148_call_partial O' fault T hT vals cur b hb m hm hc p hp
  refine ⟨s, k, h1, h2, ?_⟩
  rw [h3]
  exact called_of (f := ⟨ch, p, ty, arrives (some n)⟩) ht hch hf ((hcalls st (arrives (some n))).1 q hq)

omit [DecidableEq V] in
theorem zero_nil (H : Handler X) (O : Order) (t : Ty) (h : HasZero t) : unmarshal H O t .nil (zero X t) = .done (zero X t) := by
  cases t <;> first | rfl | exact h.elim

/-- C189: a method that has gained an argument gets zero from older clients, which send none. -/
theorem C189_gained_partial (hX : Laws X) (O O' : Order) (T : TypeDecl X V) (hT : Proper T) (vals cur : List V) (b : Builder X V) (hb : inspect (.ptr T vals) = .ok b)
    (m : Decl X (List V)) (hm : m ∈ T.methods) (hc : Callable m) (p : Str) (hp : Named m.name p) (q r : Param) (hq : m.params = [q, r]) (hva : m.variadic = false) (hz : HasZero r.ty)
    (reg : Registry (List V) (Node X)) (c : Conn (List V) (Node X)) (ch ty : Str) (ht : ty ≠ lit "new" ∧ ty ≠ lit "open" ∧ ty ≠ lit "close") (st : List V)
    (hch : lookupKey ch c.chans = some (.bound (b.toClass O' fault cur).methods st)) :
    ∃ s k, sendText (X := X) O ⟨ch, p, ty, none⟩ = .ok s ∧ decode (X := X) s = some k ∧
      Called c (onText reg O' c k).1 (onText reg O' c k).2 ch p (b.toClass O' fault cur).methods (m.run st [⟨r.ty, zero X r.ty⟩]) := by
  obtain ⟨s, k, h1, h2, h3⟩ := onText_sent hX reg O' O c ⟨ch, p, ty, none⟩ (fun _ h => by cases h)
  obtain ⟨f, hf, hcalls⟩ := C148_call_partial O' fault T hT vals cur b hb m hm hc p hp
  have hu : (⟨none⟩ : Handler X).unmarshal O' r.ty none (zero X r.ty) = .done (zero X r.ty) := zero_nil _ O' r.ty hz
  have hd := ((hcalls st none).2 q r hq hva).1 (by rw [hu]; rfl)
  rw [hu] at hd
  refine ⟨s, k, h1, h2, ?_⟩
  rw [h3]
  exact called_of (f := ⟨ch, p, ty, none⟩) ht hch hf hd

/-- C189: an object is opened with what is left of the client's argument of `Init`. -/
theorem C189_open_partial (hX : Laws X) (O O' : Order) (T : TypeDecl X V) (hT : Proper T) (vals : List V) (b : Builder X V) (hb : inspect (.ptr T vals) = .ok b) (hl : vals.length = T.fields.length)
    (hx : ∀ (i : Nat) (f : Field V) v, T.fields[i]? = some f → vals[i]? = some v → f.exported = false → v = f.zero)
    (m : Decl X (List V)) (hm : m ∈ T.methods) (hi : m.name = lit "Init") (q r : Param) (hq : m.params = [q, r]) (hqc : q.conn = true) (hva : m.variadic = false)
    (t : Ty) (hv : Version t r.ty) (v : Val X t) (n : Node X) (hn : Sendable O t v n)
    (reg : Registry (List V) (Node X)) (p : Str) (hreg : lookupKey p reg = some (b.toClass O' fault vals)) (c : Conn (List V) (Node X)) (ch ty : Str) (ht : ty = lit "new" ∨ ty = lit "open") :
    ∃ s k v', sendText O ⟨ch, p, ty, some n⟩ = .ok s ∧ decode (X := X) s = some k ∧ Seen t r.ty v v' ∧
      ((m.run vals [⟨r.ty, v'⟩]).ret = .none ∨ (m.run vals [⟨r.ty, v'⟩]).ret = .nil → (onText reg O' c k).2 = .ok ∧
        lookupKey ch (onText reg O' c k).1.chans = some (.bound (b.toClass O' fault vals).methods (m.run vals [⟨r.ty, v'⟩]).st)) := by
  obtain ⟨s, k, h1, h2, h3⟩ := handled hX O O' t v n hn ch p ty reg c
  obtain ⟨r1, r2⟩ := read_arrives hX O O' t r.ty hv v n hn
  obtain ⟨f, hf, hcalls⟩ := ((C148_init_partial O' fault T hT vals vals b hb).2 m hm hi).1 ⟨q, [r], hq, hqc, by simp⟩
  obtain ⟨d1, -, d3, -⟩ := ((hcalls vals (arrives (some n))).2 q r hq hva).1 r1
  refine ⟨s, k, _, h1, h2, r2, fun hr => ?_⟩
  rw [h3]
  have hc : ty ≠ lit "close" := by rcases ht with ht | ht <;> rw [ht] <;> decide
  have hres := d3 hr
  have hfr := C148_copy_partial O' fault T vals b hb hl hx
  simp only [onFrame, hc, if_false, ht, if_true, hreg, openChan, hfr, hf, hres]
  refine ⟨trivial, ?_⟩
  rw [lookup_store, if_pos rfl, d1]

end

section
variable {S N : Type}

/-- C189, violated: a client that calls a method which the server does not have, or opens an object it does not have, loses its connection, with all its channels: what it sends after that is not looked at. -/
theorem C189_unknown_violated (reg : Registry S N) (c : Conn S N) (fs gs : List (Frame N)) (f : Frame N) (hok : (runFrames reg c fs).2 = .ok)
    (h : (f.type = lit "new" ∨ f.type = lit "open") ∧ lookupKey f.path reg = none ∨
      (f.type ≠ lit "new" ∧ f.type ≠ lit "open" ∧ f.type ≠ lit "close") ∧ ∃ ms st, lookupKey f.channel (runFrames reg c fs).1.chans = some (.bound ms st) ∧ lookupKey f.path ms = none) :
    runFrames reg c (fs ++ f :: gs) = ((runFrames reg c fs).1, .err) := by
  induction fs generalizing c with
  | nil =>
    have : onFrame reg c f = (c, .err) := by
      rcases h with ⟨ht, hl⟩ | ⟨⟨h1, h2, h3⟩, ms, st, hch, hl⟩
      · have hc : f.type ≠ lit "close" := by rcases ht with ht | ht <;> rw [ht] <;> decide
        simp only [onFrame, hc, if_false, ht, if_true, hl]
      · simp only [runFrames] at hch
        simp [onFrame, h1, h2, h3, hch, onData, hl]
    simp only [List.nil_append, runFrames, this]
  | cons g fs ih =>
    simp only [List.cons_append, runFrames] at hok h ⊢
    cases hg : onFrame reg c g with
    | mk c' res =>
      cases res with
      | ok =>
        rw [hg] at hok h
        simp only at hok h ⊢
        exact ih c' hok h
      | err => simp [hg] at hok
      | panic => simp [hg] at hok

end

/-! ### examples -/

/-- `func (*Users) Put(c ws.C, u User) error`, which remembers the id, with the newer `User`. Values are numbers. -/
def usersTy : TypeDecl XT Int :=
  { name := lit "Users", fields := [⟨true, 0⟩],
    methods := [{ name := lit "Put", params := [⟨true, .any⟩, ⟨false, .struct user2⟩], run := fun st args => match args with
      | [⟨.struct (.cons _ (.slice _) (.cons _ (.int .w64) _)), (_, i, _)⟩] => ⟨[BitVec.toInt i], [], .nil⟩
      | _ => ⟨st, [], .nil⟩ }] }

/-- The older client's `User{7, "o", {{"n"}}}`. -/
def sent : FVals XT user1 := ((7 : BitVec 32), lit "o", some [(show FVals XT tag1 from (lit "n", ()))], ())

theorem users_proper : Proper usersTy := by
  refine ⟨by simp only [usersTy]; decide +kernel, ?_⟩
  intro m hm
  simp only [usersTy, List.mem_cons, List.not_mem_nil, or_false] at hm
  subst hm
  exact ⟨_, _, rfl, by decide⟩

theorem sent_faithful : Faithful true (.struct user1) sent := by
  have t1 : parseTag { name := lit "Id" } = some ⟨lit "Id", lit "Id", false, false⟩ := by decide +kernel
  have t2 : parseTag { name := lit "Old" } = some ⟨lit "Old", lit "Old", false, false⟩ := by decide +kernel
  have t3 : parseTag { name := lit "Tags" } = some ⟨lit "Tags", lit "Tags", false, false⟩ := by decide +kernel
  have t4 : parseTag { name := lit "Name" } = some ⟨lit "Name", lit "Name", false, false⟩ := by decide +kernel
  refine ⟨by decide +kernel, by decide +kernel, ?_⟩
  simp only [FaithfulFields, user1, sent, t1, t2, t3, Bool.false_eq_true, if_false, false_implies, and_true]
  refine ⟨trivial, trivial, ?_⟩
  show ∀ x ∈ [(show FVals XT tag1 from (lit "n", ()))], Faithful true (.struct tag1) x
  intro x hx
  rw [List.mem_singleton] at hx
  subst hx
  refine ⟨by decide +kernel, by decide +kernel, ?_⟩
  simp only [FaithfulFields, tag1, t4, Bool.false_eq_true, if_false, false_implies, and_true]
  trivial

/-- It can be sent. -/
theorem sent_ok : ∃ n, Sendable (X := XT) sortedOrder (.struct user1) sent n := ⟨_, sent_faithful, rfl, by decide +kernel, fun h => by cases h⟩

/-- The older client's call of `put`, of an object of the newer server. -/
example (fault : Str → Option (Node XT) → Node XT × Node XT) (b : Builder XT Int) (hb : inspect (.ptr usersTy [0]) = .ok b) (c : Conn (List Int) (Node XT)) (st : List Int)
    (hch : lookupKey (lit "a") c.chans = some (.bound (b.toClass sortedOrder fault [0]).methods st)) (n : Node XT) (hn : Sendable sortedOrder (.struct user1) sent n) :
    ∃ s k v', sendText sortedOrder ⟨lit "a", lit "put", [], some n⟩ = .ok s ∧ decode (X := XT) s = some k ∧ Seen (.struct user1) (.struct user2) sent v' ∧
      Called c (onText [] sortedOrder c k).1 (onText [] sortedOrder c k).2 (lit "a") (lit "put") (b.toClass sortedOrder fault [0]).methods ((usersTy.methods.getD 0 ⟨[], [], false, fun st _ => ⟨st, [], .nil⟩⟩).run st [⟨.struct user2, v'⟩]) :=
  C189_call_partial fault XT_laws sortedOrder sortedOrder usersTy users_proper [0] [0] b hb _ (List.mem_cons_self ..) ⟨by decide +kernel, _, _, rfl, rfl, by simp⟩ (lit "put") ⟨'P', lit "ut", rfl, by decide, rfl⟩
    ⟨true, .any⟩ ⟨false, .struct user2⟩ rfl rfl (.struct user1) version_user sent n hn [] c (lit "a") [] ⟨by decide, by decide, by decide⟩ st hch

/-- What is written, and what `put` makes of it. -/
example : (marshal (X := XT) sortedOrder (.struct user1) sent).bind (fun n => sendText sortedOrder ⟨lit "a", lit "put", [], some n⟩) =
    .ok (lit "{\"channel\":\"a\",\"path\":\"put\",\"type\":\"\",\"data\":{\"Id\":7,\"Old\":\"o\",\"Tags\":[{\"Name\":\"n\"}]}}") := by decide +kernel
example : ((usersTy.methods.getD 0 ⟨[], [], false, fun st _ => ⟨st, [], .nil⟩⟩).run [0]
    [⟨.struct user2, (show FVals XT user2 from (some [(show FVals XT tag2 from ([], lit "n", ()))], (7 : BitVec 64), [], ()))⟩]).st = [7] := rfl

end Verif.Ws.Skew

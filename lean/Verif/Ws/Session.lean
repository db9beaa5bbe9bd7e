import Verif.Ws.RpcProps
import Verif.Ws.Wire
import Verif.Ws.TransportProps
/-!
# A session over a websocket is the session of its frames (C146)

The parts of the model put together: messages (C126), texts (C63), the loop with its two goroutines (C60), the objects behind the channels (C61).
-/
set_option autoImplicit false
namespace Verif.Ws.Session
open Verif.Strconv Verif.Enc Verif.Ws Verif.Ws.Transport

section
variable {X : Ext} {S : Type}

/-- `onData` of an rpc connection (rpc.go L25-32): a node, maybe nil, is unmarshalled into a new `Frame`, which is handled. -/
def onText (reg : Registry S (Node X)) (O : Order) (c : Conn S (Node X)) (n : Option (Node X)) : Conn S (Node X) × HRes :=
  let r := (⟨none⟩ : Handler X).unmarshal O (.struct frameTy) n (zero X (.struct frameTy))
  match r.st with
  | .ok => match (r.val : FVals X frameTy) with
    | (ch, p, t, d, _) => onFrame reg c ⟨ch, p, t, d⟩
  | .err => (c, .err)
  | .panic => (c, .panic)

/-- A member of an object that is a text, the empty one if it is missing. -/
def TextMember (m : List (Str × Node X)) (k : String) (v : Str) : Prop := (lookupKey (lit k) m = none ∧ v = []) ∨ lookupKey (lit k) m = some (.str v)

/-- A text is a JSON object that means a frame: its members, in any order, with any white space, beside any others, are those of the frame. -/
def Means (s : Str) (f : Frame (Node X)) : Prop :=
  ∃ m, decode (X := X) s = some (some (.map m)) ∧ TextMember m "channel" f.channel ∧ TextMember m "path" f.path ∧ TextMember m "type" f.type ∧ lookupKey (lit "data") m = f.data

/-- A text carries a frame: it means it, or is what a peer written with this package sends, of which that frame arrives (C63). -/
def Carries (s : Str) (f : Frame (Node X)) : Prop :=
  Means s f ∨ ∃ O g, (∀ n, g.data = some n → n.WF ∧ n.encodable = true ∧ n.depth < maxDepth) ∧ sendText O g = .ok s ∧ f = { g with data := arrives g.data }

/-- What a peer sends: each text in one message, text or binary; in the end, if it likes, a close frame and anything after it. -/
def session (msgs : List (Bool × Str)) (bye : Option (List Item)) : List Item :=
  msgs.map (fun m => .msg m.1 m.2 []) ++ match bye with | none => [] | some l => .close [] :: l

/-! ### lemmas -/

theorem uFields_means (O : Order) (mp : List (Str × Node X)) (f : Frame (Node X)) (h1 : TextMember mp "channel" f.channel) (h2 : TextMember mp "path" f.path)
    (h3 : TextMember mp "type" f.type) (h4 : lookupKey (lit "data") mp = f.data) :
    uFields ⟨none⟩ O frameTy mp (zeroFields X frameTy) = .done ((f.channel, f.path, f.type, f.data, ()) : FVals X frameTy) := by
  have t1 : parseTag { name := lit "Channel", tag := lit "channel,omitempty" } = some ⟨lit "Channel", lit "channel", true, false⟩ := by decide +kernel
  have t2 : parseTag { name := lit "Path", tag := lit "path,omitempty" } = some ⟨lit "Path", lit "path", true, false⟩ := by decide +kernel
  have t3 : parseTag { name := lit "Type", tag := lit "type" } = some ⟨lit "Type", lit "type", false, false⟩ := by decide +kernel
  have t4 : parseTag { name := lit "Data", tag := lit "data,omitempty" } = some ⟨lit "Data", lit "data", true, false⟩ := by decide +kernel
  obtain ⟨ch, p, t, d⟩ := f
  simp only at h1 h2 h3 h4
  unfold frameTy
  rcases h1 with ⟨e1, rfl⟩ | e1 <;> rcases h2 with ⟨e2, rfl⟩ | e2 <;> rcases h3 with ⟨e3, rfl⟩ | e3 <;> cases d <;>
    simp only [zeroFields, uFields, t1, t2, t3, t4, e1, e2, e3, h4] <;> rfl

/-- The text of a frame is handled as the frame. -/
theorem onText_means (reg : Registry S (Node X)) (O : Order) (c : Conn S (Node X)) (s : Str) (f : Frame (Node X)) (h : Means s f) :
    ∃ n, decode (X := X) s = some n ∧ onText reg O c n = onFrame reg c f := by
  obtain ⟨m, hd, h1, h2, h3, h4⟩ := h
  refine ⟨_, hd, ?_⟩
  have hu : (⟨none⟩ : Handler X).unmarshal O (.struct frameTy) (some (.map m)) (zero X (.struct frameTy)) = .done ((f.channel, f.path, f.type, f.data, ()) : FVals X frameTy) := by
    show unmarshal _ O (.struct frameTy) (.map m) (zeroFields X frameTy) = _
    rw [un_struct_map, uFields_means O m f h1 h2 h3 h4]
    rfl
  simp only [onText, hu]
  rfl

/-- And so is the text a Go peer sends: as the frame that arrives (C63). -/
theorem onText_sent (hX : Laws X) (reg : Registry S (Node X)) (O O' : Order) (c : Conn S (Node X)) (f : Frame (Node X)) (hd : ∀ n, f.data = some n → n.WF ∧ n.encodable = true ∧ n.depth < maxDepth) :
    ∃ s n, sendText O' f = .ok s ∧ decode (X := X) s = some n ∧ onText reg O c n = onFrame reg c { f with data := arrives f.data } := by
  obtain ⟨s, h1, h2⟩ := C63_arrives_partial hX O' O f hd
  simp only [recvText, unmarshalJSON] at h2
  cases hs : decode (X := X) s with
  | none => rw [hs] at h2; exact absurd (congrArg Out.st h2) (fun h => by cases h)
  | some n =>
    rw [hs] at h2
    refine ⟨s, n, h1, hs, ?_⟩
    simp only at h2
    simp only [onText, h2]
    rfl

/-- So what carries a frame is handled as the frame. -/
theorem onText_carries (hX : Laws X) (reg : Registry S (Node X)) (O : Order) (c : Conn S (Node X)) (s : Str) (f : Frame (Node X)) (h : Carries s f) :
    ∃ n, decode (X := X) s = some n ∧ onText reg O c n = onFrame reg c f := by
  rcases h with h | ⟨O', g, h1, h2, rfl⟩
  · exact onText_means reg O c s f h
  · obtain ⟨s', n, k1, k2, k3⟩ := onText_sent hX reg O O' c g h1
    rw [h2] at k1
    injection k1 with k1
    subst k1
    exact ⟨n, k2, k3⟩

theorem exec_append {N σ : Type} {h : σ → N → σ × HRes} {s0 s s' : St N σ} {tr tr' : List (Ev N)} (h1 : Exec h s0 tr s) (h2 : Exec h s tr' s') : Exec h s0 (tr ++ tr') s' := by
  induction h2 with
  | nil => rwa [List.append_nil]
  | snoc _ hs ih => rw [← List.append_assoc]; exact .snoc ih hs

/-- The loop can handle all there is. -/
theorem exec_all {N σ : Type} (h : σ → N → σ × HRes) : ∀ (input : List N) (a : σ), ∃ tr s, Exec h { input, app := a } tr s ∧ s.main = .exited ∧ s.app = (handleAll h a input).2.1 ∧
    tr = (handleAll h a input).1 ++ (if (handleAll h a input).2.2 = .ok then [.quit] else []) ++ [.close]
  | [], a => ⟨_, _, .snoc (.snoc (.snoc .nil (.fail rfl)) (.mainClosed rfl rfl)) (.close rfl), rfl, rfl, rfl⟩
  | n :: l, a => by
    have e1 : Exec h { input := n :: l, app := a } [] _ := .snoc .nil (.read rfl rfl)
    have e2 := Exec.snoc e1 (.handoff (n := n) rfl rfl)
    rcases hh : h a n with ⟨a', r⟩
    cases r with
    | ok =>
      have e3 := Exec.snoc e2 (.finish (n := n) (a := a') rfl hh)
      obtain ⟨tr, s, k1, k2, k3, k4⟩ := exec_all h l a'
      refine ⟨_, s, exec_append e3 k1, k2, ?_, ?_⟩
      · simp only [handleAll, hh]; exact k3
      · simp only [handleAll, hh, k4]; simp
    | err =>
      have e3 := Exec.snoc (Exec.snoc e2 (.finishErr (n := n) (a := a') rfl hh)) (.close rfl)
      refine ⟨_, _, e3, rfl, ?_, ?_⟩
      · simp only [handleAll, hh]
      · simp only [handleAll, hh]; rfl
    | panic =>
      have e3 := Exec.snoc (Exec.snoc e2 (.finishPanic (n := n) (a := a') rfl hh)) (.close rfl)
      refine ⟨_, _, e3, rfl, ?_, ?_⟩
      · simp only [handleAll, hh]
      · simp only [handleAll, hh]; rfl

/-- What the loop does with nodes that are handled as frames is what is done with the frames. -/
theorem handleAll_frames (reg : Registry S (Node X)) (O : Order) : ∀ (l : List (Option (Node X) × Frame (Node X))) (c : Conn S (Node X)),
    (∀ x ∈ l, ∀ c, onText reg O c x.1 = onFrame reg c x.2) → (handleAll (onText reg O) c (l.map (·.1))).2 = runFrames reg c (l.map (·.2))
  | [], _, _ => rfl
  | x :: l, c, h => by
    have hx := h x (by simp) c
    obtain ⟨⟨c1, r⟩, ho⟩ : ∃ o, onFrame reg c x.2 = o := ⟨_, rfl⟩
    rw [ho] at hx
    simp only [List.map_cons, handleAll, runFrames, hx, ho]
    cases r with
    | ok => exact handleAll_frames reg O l c1 fun y hy => h y (by simp [hy])
    | err => rfl
    | panic => rfl

theorem meant_session (msgs : List (Bool × Str)) (bye : Option (List Item)) (ns : List (Option (Node X))) (h : msgs.map (fun m => decode (X := X) m.2) = ns.map some) :
    meant (X := X) (session msgs bye) = ns := by
  induction msgs generalizing ns with
  | nil =>
    have : ns = [] := by cases ns with | nil => rfl | cons => cases h
    subst this
    cases bye <;> rfl
  | cons m l ih =>
    cases ns with
    | nil => cases h
    | cons n ns =>
      simp only [List.map_cons, List.cons.injEq] at h
      show (match decode (X := X) (m.2 ++ List.flatten []) with | some n => n :: meant (session l bye) | none => []) = n :: ns
      simp only [List.flatten_nil, List.append_nil, h.1, ih ns h.2]

/-- What is read stops at the close frame. -/
theorem readLoop_session (msgs : List (Bool × Str)) (bye : Option (List Item)) : readLoop (X := X) (wire (session msgs bye)) = (meant (X := X) (session msgs bye), .returned) := by
  induction msgs with
  | nil => cases bye <;> rfl
  | cons m l ih =>
    have hw : wire (session (m :: l) bye) = ⟨if m.1 then .bin else .text, true, m.2⟩ :: wire (session l bye) := rfl
    have hm : meant (X := X) (session (m :: l) bye) = match decode (X := X) m.2 with | some n => n :: meant (session l bye) | none => [] := by
      show (match decode (X := X) (m.2 ++ List.flatten []) with | some n => n :: meant (session l bye) | none => []) = _
      simp only [List.flatten_nil, List.append_nil]
    have hr : read (X := X) (⟨if m.1 then .bin else .text, true, m.2⟩ :: wire (session l bye)) = match decode m.2 with | some n => .node n | none => .err := by
      cases m.1 <;> rfl
    rw [hw, hm]
    simp only [readLoop, hr]
    cases decode (X := X) m.2 with
    | none => rfl
    | some n => simp only [ih]

/-- The texts of a session, read, are handled as its frames. -/
theorem read_frames (hX : Laws X) (reg : Registry S (Node X)) (O : Order) (l : List ((Bool × Str) × Frame (Node X))) (bye : Option (List Item)) (h : ∀ x ∈ l, Carries x.1.2 x.2) :
    ∃ k : List (Option (Node X) × Frame (Node X)), readLoop (X := X) (wire (session (l.map (·.1)) bye)) = (k.map (·.1), .returned) ∧ k.map (·.2) = l.map (·.2) ∧
      ∀ x ∈ k, ∀ c : Conn S (Node X), onText reg O c x.1 = onFrame reg c x.2 := by
  have key : ∃ k : List (Option (Node X) × Frame (Node X)), (l.map (·.1)).map (fun m => decode (X := X) m.2) = (k.map (·.1)).map some ∧ k.map (·.2) = l.map (·.2) ∧
      ∀ x ∈ k, ∀ c : Conn S (Node X), onText reg O c x.1 = onFrame reg c x.2 := by
    induction l with
    | nil => exact ⟨[], rfl, rfl, by simp⟩
    | cons x l ih =>
      obtain ⟨k, k1, k2, k3⟩ := ih fun y hy => h y (by simp [hy])
      have hx := h x (by simp)
      obtain ⟨n, hn, -⟩ := onText_carries hX reg O { } x.1.2 x.2 hx
      refine ⟨(n, x.2) :: k, by simp only [List.map_cons, k1, hn], by simp only [List.map_cons, k2], ?_⟩
      simp only [List.mem_cons, forall_eq_or_imp]
      refine ⟨fun c => ?_, k3⟩
      obtain ⟨n', hn', e⟩ := onText_carries hX reg O c x.1.2 x.2 hx
      rw [hn] at hn'
      injection hn' with hn'
      subst hn'
      exact e
  obtain ⟨k, k1, k2, k3⟩ := key
  exact ⟨k, by rw [readLoop_session, meant_session _ _ _ k1], k2, k3⟩

theorem prefix_map {A B : Type} (f : A → B) : ∀ (l : List A) (p : List B), p <+: l.map f → ∃ q, q <+: l ∧ p = q.map f
  | l, [], _ => ⟨[], List.nil_prefix, rfl⟩
  | [], b :: p, h => by simp at h
  | a :: l, b :: p, h => by
    rw [List.map_cons, List.cons_prefix_cons] at h
    obtain ⟨q, h1, h2⟩ := prefix_map f l p h.2
    exact ⟨a :: q, List.cons_prefix_cons.mpr ⟨rfl, h1⟩, by rw [List.map_cons, ← h2, h.1]⟩

/-! ### C146 -/

/-- **C146.** Whatever the schedule, and wherever the connection breaks: what a websocket session has done to the objects, and what it has sent, is what its first frames do one
after the other; a disconnect frame was sent if and only if the last of them failed, and the loop has then ended or is about to. -/
theorem C146_session_partial (hX : Laws X) (reg : Registry S (Node X)) (O : Order) (l : List ((Bool × Str) × Frame (Node X))) (bye : Option (List Item)) (h : ∀ x ∈ l, Carries x.1.2 x.2)
    (tr : List (Ev (Option (Node X)))) (s : St (Option (Node X)) (Conn S (Node X)))
    (he : Exec (onText reg O) { input := (readLoop (wire (session (l.map (·.1)) bye))).1, app := { } } tr s) :
    ∃ fs, fs <+: l.map (·.2) ∧ s.app = (runFrames reg { } fs).1 ∧
      (match s.main with | .waiting => (runFrames reg { } fs).2 = .ok | .handling _ => (runFrames reg { } fs).2 = .ok ∧ ∃ f, fs ++ [f] <+: l.map (·.2) | _ => True) ∧
      (0 < tr.countP Ev.isDisconnect ↔ (runFrames reg { } fs).2 = .err) := by
  obtain ⟨k, k1, k2, k3⟩ := read_frames hX reg O l bye h
  rw [k1] at he
  obtain ⟨ns, hp, happ, hm⟩ := C60_sequential _ _ _ tr s he
  obtain ⟨q, hq, rfl⟩ := prefix_map _ _ _ hp
  have hrun := handleAll_frames reg O q { } fun x hx => k3 x (hq.subset hx)
  obtain ⟨-, i2, -, -, -⟩ := handleAll_shape (onText reg O) { } (q.map (·.1))
  refine ⟨q.map (·.2), by rw [← k2]; exact hq.map _, by rw [← hrun]; exact happ.symm, ?_, ?_⟩
  · rw [← hrun]
    cases hmain : s.main <;> rw [hmain] at hm <;> simp only at hm ⊢
    · exact hm.2
    · refine ⟨hm.2.1, ?_⟩
      obtain ⟨q', hq', e⟩ := prefix_map _ _ _ hm.2.2
      have hlen : q'.length = q.length + 1 := by simpa using (congrArg List.length e).symm
      have hqq : q <+: q' := List.prefix_of_prefix_length_le hq hq' (by omega)
      obtain ⟨t, rfl⟩ := hqq
      match t, hlen with
      | [x], _ => exact ⟨x.2, by rw [← k2]; simpa using hq'.map (·.2)⟩
      | [], hlen => simp at hlen
      | _ :: _ :: _, hlen => simp at hlen
  · rw [← hrun]
    have hc : tr.countP Ev.isDisconnect = (handleAll (onText reg O) { } (q.map (·.1))).1.countP Ev.isDisconnect := by
      cases hmain : s.main <;> rw [hmain] at hm <;> simp only at hm
      · rw [hm.1]
      · rw [hm.1, List.countP_append]; rfl
      · rw [hm, List.countP_append]; split <;> rfl
      · rw [hm, List.countP_append, List.countP_append]; split <;> rfl
    rw [hc, i2]
    split
    · rename_i e; exact ⟨fun _ => e, fun _ => by omega⟩
    · rename_i e; exact ⟨fun h => by omega, fun h => absurd h e⟩

/-- **C146.** And all of them can be handled: there is a run that ends having done what the frames do, all of them or those up to the first that fails. -/
theorem C146_all (hX : Laws X) (reg : Registry S (Node X)) (O : Order) (l : List ((Bool × Str) × Frame (Node X))) (bye : Option (List Item)) (h : ∀ x ∈ l, Carries x.1.2 x.2) :
    ∃ tr s, Exec (onText reg O) { input := (readLoop (wire (session (l.map (·.1)) bye))).1, app := { } } tr s ∧ s.main = .exited ∧ s.app = (runFrames reg { } (l.map (·.2))).1 := by
  obtain ⟨k, k1, k2, k3⟩ := read_frames hX reg O l bye h
  rw [k1, ← k2]
  obtain ⟨tr, s, h1, h2, h3, -⟩ := exec_all (onText reg O) (k.map (·.1)) { }
  exact ⟨tr, s, h1, h2, by rw [h3, handleAll_frames reg O k { } k3]⟩

/-- **C146.** So the channels of a session do not see each other, as long as no frame failed and the connection is open: the object of a channel and what is sent on it are those of the session in which nobody else talks. -/
theorem C146_isolated (hX : Laws X) (reg : Registry S (Node X)) (O : Order) (l : List ((Bool × Str) × Frame (Node X))) (bye : Option (List Item)) (h : ∀ x ∈ l, Carries x.1.2 x.2)
    (tr : List (Ev (Option (Node X)))) (s : St (Option (Node X)) (Conn S (Node X)))
    (he : Exec (onText reg O) { input := (readLoop (wire (session (l.map (·.1)) bye))).1, app := { } } tr s) (hw : s.main = .waiting) (ho : s.app.closed = false) (ch : Str) :
    ∃ fs tr' s', fs <+: l ∧ Exec (onText reg O) { input := (readLoop (wire (session ((fs.filter fun x => x.2.channel = ch).map (·.1)) none))).1, app := { } } tr' s' ∧ s'.main = .exited ∧
      lookupKey ch s.app.chans = lookupKey ch s'.app.chans ∧ s.app.out.filter (fun f => f.channel = ch) = s'.app.out.filter (fun f => f.channel = ch) := by
  obtain ⟨fs, hp, happ, hm, -⟩ := C146_session_partial hX reg O l bye h tr s he
  obtain ⟨q, hq, rfl⟩ := prefix_map _ _ _ hp
  rw [hw] at hm
  simp only at hm
  obtain ⟨-, i2, i3⟩ := C61_isolated reg { } (q.map (·.2)) hm (by rw [← happ]; exact ho) ch
  obtain ⟨tr', s', h1, h2, h3⟩ := C146_all hX reg O (q.filter fun x => x.2.channel = ch) none fun x hx => h x (hq.subset (List.mem_filter.mp hx).1)
  refine ⟨q, tr', s', hq, h1, h2, ?_, ?_⟩
  · rw [happ, i2, h3, List.filter_map]; rfl
  · rw [happ, i3, h3, List.filter_map]; rfl

/-- **C146.** What is sent back is one text frame per frame, from which the peer reads the frame, but for data that is null or an empty text (C63). -/
theorem C146_replies_partial (hX : Laws X) (O O' : Order) (out : List (Frame (Node X))) (hd : ∀ f ∈ out, ∀ n, f.data = some n → n.WF ∧ n.encodable = true ∧ n.depth < maxDepth) :
    ∃ ts : List Str, out.map (sendText O) = ts.map .ok ∧ ts.map (recvText O') = out.map fun f => Out.done (Frame.val { f with data := arrives f.data }) := by
  induction out with
  | nil => exact ⟨[], rfl, rfl⟩
  | cons f out ih =>
    obtain ⟨ts, h1, h2⟩ := ih fun g hg => hd g (by simp [hg])
    obtain ⟨s, h3, h4⟩ := C63_arrives_partial hX O O' f (hd f (by simp))
    exact ⟨s :: ts, by simp only [List.map_cons, h1, h3], by simp only [List.map_cons, h2, h4]⟩

/-- **C146, violated.** A peer that sends a ping between its frames, as every peer may at any time, ends the program and with it every session (C126). -/
theorem C146_ping_violated (hX : Laws X) (l : List ((Bool × Str) × Frame (Node X))) (h : ∀ x ∈ l, Carries x.1.2 x.2) (p : Str) (rest : List Item) :
    (readLoop (X := X) (wire (session (l.map (·.1)) none ++ .ping p :: rest))).2 = .crashed := by
  refine C126_ping_violated _ rest p _ (Or.inl rfl) fun i hi => ?_
  simp only [session, List.append_nil, List.map_map, List.mem_map] at hi
  obtain ⟨x, hx, rfl⟩ := hi
  obtain ⟨n, hn, -⟩ := onText_carries (S := Unit) hX [] sortedOrder { } _ _ (h x hx)
  exact ⟨_, _, _, rfl, hn⟩

end

/-! ### examples -/

/-- A counter behind frames of nodes: `inc` wants a number, `get` replies with the count. -/
def ticker : Class Nat (Node XT) where
  fresh := some 10
  init := none
  methods := [(lit "inc", fun s d => match d with | some (.digits _) => ⟨s + 1, [], .ok⟩ | _ => ⟨s, [], .err .nil (.str (lit "no number"))⟩),
    (lit "get", fun s _ => ⟨s, [.reply (lit "ct") (.int s)], .ok⟩)]

/-- Three frames of two channels, written by hand: members in any order, white space, members nobody knows. -/
def demoTexts : List ((Bool × Str) × Frame (Node XT)) :=
  [((false, lit "{\"type\":\"new\",\"path\":\"ticker\",\"channel\":\"a\"}"), ⟨lit "a", lit "ticker", lit "new", none⟩),
   ((true, lit " {\"channel\": \"b\", \"type\": \"new\", \"path\": \"ticker\", \"v\": [1]} "), ⟨lit "b", lit "ticker", lit "new", none⟩),
   ((false, lit "{\"data\":3,\"path\":\"inc\",\"channel\":\"b\"}"), ⟨lit "b", lit "inc", [], some (.digits (lit "3"))⟩),
   ((false, lit "{\"channel\":\"b\",\"path\":\"get\",\"type\":\"\"}"), ⟨lit "b", lit "get", [], none⟩)]

/-- They mean their frames. -/
theorem demo_means : ∀ x ∈ demoTexts, Means x.1.2 x.2 := by
  simp only [demoTexts, List.mem_cons, List.not_mem_nil, or_false, forall_eq_or_imp, forall_eq]
  refine ⟨?_, ?_, ?_, ?_⟩
  · exact ⟨[(lit "channel", .str (lit "a")), (lit "path", .str (lit "ticker")), (lit "type", .str (lit "new"))], by decide +kernel, Or.inr (by decide +kernel), Or.inr (by decide +kernel), Or.inr (by decide +kernel), by decide +kernel⟩
  · exact ⟨[(lit "channel", .str (lit "b")), (lit "path", .str (lit "ticker")), (lit "type", .str (lit "new")), (lit "v", .list [.digits (lit "1")])], by decide +kernel, Or.inr (by decide +kernel), Or.inr (by decide +kernel), Or.inr (by decide +kernel), by decide +kernel⟩
  · exact ⟨[(lit "channel", .str (lit "b")), (lit "data", .digits (lit "3")), (lit "path", .str (lit "inc"))], by decide +kernel, Or.inr (by decide +kernel), Or.inr (by decide +kernel), Or.inl (by decide +kernel), by decide +kernel⟩
  · exact ⟨[(lit "channel", .str (lit "b")), (lit "path", .str (lit "get")), (lit "type", .str [])], by decide +kernel, Or.inr (by decide +kernel), Or.inr (by decide +kernel), Or.inr (by decide +kernel), by decide +kernel⟩

/-- C146: what the session of the four texts sends. -/
example : ∃ tr s, Exec (onText [(lit "ticker", ticker)] sortedOrder) { input := (readLoop (wire (session (demoTexts.map (·.1)) (some [.ping []])))).1, app := { } } tr s ∧ s.main = .exited ∧
    s.app.out = [⟨lit "b", lit "inc", lit "return", none⟩, ⟨lit "b", lit "ct", [], some (.int 11)⟩, ⟨lit "b", lit "get", lit "return", none⟩] := by
  obtain ⟨tr, s, h1, h2, h3⟩ := C146_all XT_laws [(lit "ticker", ticker)] sortedOrder demoTexts (some [.ping []]) fun x hx => Or.inl (demo_means x hx)
  refine ⟨tr, s, h1, h2, ?_⟩
  rw [h3]
  decide +kernel

/-- C146: the texts of what is sent. -/
example : ([⟨lit "b", lit "inc", lit "return", none⟩, ⟨lit "b", lit "ct", [], some (.int 11)⟩] : List (Frame (Node XT))).map (sendText sortedOrder) =
    [.ok (lit "{\"channel\":\"b\",\"path\":\"inc\",\"type\":\"return\"}"), .ok (lit "{\"channel\":\"b\",\"path\":\"ct\",\"type\":\"\",\"data\":11}")] := by decide +kernel

/-- C146: a text that is no frame is an error, and an empty message is the frame in which everything is empty. -/
example : (onText (S := Nat) [(lit "ticker", ticker)] sortedOrder { } (some (.list []))).2 = .err ∧ (onText (S := Nat) [(lit "ticker", ticker)] sortedOrder { } (some (.map [(lit "path", .digits (lit "1"))]))).2 = .err ∧
    (onText (S := Nat) [(lit "ticker", ticker)] sortedOrder (onFrame [(lit "ticker", ticker)] { } ⟨[], lit "ticker", lit "new", none⟩).1 none).2 = .err := by decide +kernel

end Verif.Ws.Session

import Verif.Ws.Session
import Verif.Ws.InspectProps
import Verif.Api.TestProps
/-!
# What a test of a websocket object shows (C161)

The test client (http/ws/test.go) hands frames to the loop of a connection and gets those the connection sends, as nodes: they are marshalled and unmarshalled, but never written as
JSON. Here that is compared with the session over a websocket (C146).
-/
set_option autoImplicit false
namespace Verif.Ws.TestWire
open Verif.Strconv Verif.Enc Verif.Ws Verif.Ws.Session Verif.Ws.Transport Verif.Ws.Inspect
open Verif.Http (utf8)

section
variable {X : Ext} {S : Type}

/-- `testWS.Read` (test.go L29-41): the frame, marshalled. -/
def testRead (O : Order) (f : Frame (Node X)) : Res (Node X) := marshal O (.struct frameTy) f.val

/-- What `Loop` reads of the frames sent with a test client: the first that can not be marshalled ends the reading goroutine (test.go L29-41, conn.go L27-49). -/
def testReads (O : Order) : List (Frame (Node X)) → List (Option (Node X))
  | [] => []
  | f :: fs => match testRead O f with
    | .ok n => some n :: testReads O fs
    | _ => []

/-- The function of a channel gets the frame, if there is one (test.go L52-56). -/
def reach (chans : List Str) (f : Frame (Node X)) : Res (Frame (Node X)) := if f.channel ∈ chans then .ok f else .err

/-- `testWS.Write` (test.go L43-57) of what `Conn.Send` marshals (conn.go L72-74), on an open connection, for a client with these channels: the frame its function gets. -/
def testWrite (O O' : Order) (chans : List Str) (f : Frame (Node X)) : Res (Frame (Node X)) :=
  match marshal O (.struct frameTy) f.val with
  | .ok n =>
    let r := (⟨none⟩ : Handler X).unmarshal O' (.struct frameTy) (some n) (zero X (.struct frameTy))
    match r.st with
    | .ok => match (r.val : FVals X frameTy) with
      | (ch, p, t, d, _) => reach chans ⟨ch, p, t, d⟩
    | .err => .err
    | .panic => .panic
  | _ => .panic

/-! ### specification -/

/-- Data that JSON can carry: without floats that are no numbers, nested less than 10000 deep. -/
def Plain (f : Frame (Node X)) : Prop := ∀ n, f.data = some n → n.WF ∧ n.encodable = true ∧ n.depth < maxDepth

/-- A method does not tell a node from what JSON makes of it. -/
def Deaf (m : Method S (Node X)) (n : Node X) : Prop := ∀ st, m st (some n) = m st (some n.norm)

/-- Whatever a frame can reach, among the registered objects, is deaf to its data. -/
def Unheard (reg : Registry S (Node X)) (f : Frame (Node X)) : Prop :=
  ∀ n, f.data = some n → (∀ k i, lookupKey f.path reg = some k → k.init = some i → Deaf i n) ∧ ∀ k ∈ reg, ∀ m, lookupKey f.path k.2.methods = some m → Deaf m n

/-- The same, seen from outside. -/
def Ev.shape {N : Type} : Ev N → Ev Unit
  | .begin _ => .begin ()
  | .finish _ r => .finish () r
  | .disconnect => .disconnect
  | .quit => .quit
  | .close => .close

/-! ### frames as nodes -/

/-- What arrives of the data: itself or its decoded form. -/
def handed (d : Option (Node X)) : Option (Node X) :=
  match d with
  | none => none
  | some n => match marshalNode n with
    | .ok m => if emptyNode m then none else some m
    | _ => none

theorem handed_cases (hX : Laws X) (O : Order) (f : Frame (Node X)) (h : Plain f) :
    ∃ m, marshal O .node (f.data : Val X .node) = .ok m ∧ handed f.data = (if emptyNode m then none else some m) ∧ (handed f.data).map Node.norm = arrives f.data ∧
      ∀ n, f.data = some n → m = n ∨ m = n.norm := by
  cases hd : f.data with
  | none => exact ⟨.nil, rfl, rfl, rfl, fun _ h => by cases h⟩
  | some n =>
    obtain ⟨h1, h2, h3⟩ := h n hd
    obtain ⟨m, b1, b2, b3, b4, b5⟩ := marshalNode_norm hX n h1 h2 (Nat.le_of_lt h3)
    have hh : handed (some n) = (if emptyNode m then none else some m) := by simp only [handed, b1]
    refine ⟨m, b1, hh, ?_, ?_⟩
    · rw [hh]
      cases he : emptyNode m with
      | true =>
        rcases b5.mp he with e | e <;> simp [arrives, e]
      | false =>
        simp only [Bool.false_eq_true, if_false, Option.map_some, b2, arrives]
        split
        · rename_i e; rw [b5.mpr (.inl e)] at he; cases he
        · rename_i e; rw [b5.mpr (.inr e)] at he; cases he
        · rfl
    · intro n' hn'
      injection hn' with hn'
      subst hn'
      have hdec : decode n.text = some (some n.norm) := C39_round_trip hX n h1 n.text (by rw [encode, if_pos h2]) (Nat.le_of_lt h3)
      have hc : marshalNode n = .ok n ∨ marshalNode n = .ok n.norm := by
        cases n with
        | str _ => exact .inl rfl
        | bool _ => exact .inl rfl
        | list _ => exact .inl rfl
        | map l =>
          have : Node.mapEncodable l = true := by simp only [Node.encodable, Bool.and_eq_true] at h2; exact h2.1
          exact .inr (by simp only [marshalNode, this, hdec, if_true])
        | pairs l =>
          have : Node.pairsEncodable l = true := by simp only [Node.encodable, Bool.and_eq_true] at h2; exact h2.1
          exact .inr (by simp only [marshalNode, this, hdec, if_true])
        | _ => exact .inr (by simp only [marshalNode, h2, hdec, if_true])
      rw [b1] at hc
      rcases hc with hc | hc <;> injection hc with hc
      · exact .inl hc
      · exact .inr hc

/-- A frame handed over as a node is the frame, with its data handed over. -/
theorem frame_node (O O' : Order) (f : Frame (Node X)) (m : Node X) (hm : marshal O .node (f.data : Val X .node) = .ok m) :
    ∃ n, testRead O f = .ok n ∧ (⟨none⟩ : Handler X).unmarshal O' (.struct frameTy) (some n) (zero X (.struct frameTy)) =
      .done (Frame.val { f with data := if emptyNode m then none else some m }) := by
  have hmf := marshal_frame O f m hm
  refine ⟨_, hmf, ?_⟩
  show unmarshal _ O' (.struct frameTy) (.pairs _) (zeroFields X frameTy) = _
  rw [un_struct_pairs]
  have n1 : lit "channel" ≠ lit "path" := by decide
  have n2 : lit "channel" ≠ lit "type" := by decide
  have n3 : lit "channel" ≠ lit "data" := by decide
  have n4 : lit "path" ≠ lit "type" := by decide
  have n5 : lit "path" ≠ lit "data" := by decide
  have n6 : lit "type" ≠ lit "data" := by decide
  have hu := uFields_frame O' (asMap (frameEntries f (!emptyNode m) m)) f (if emptyNode m then none else some m) ?_ ?_ ?_ ?_
  · rw [hu]; rfl
  all_goals
    rw [asMap, lookup_ofEntries]
    unfold frameEntries entry
    cases hem : emptyNode m <;> by_cases h1 : f.channel = [] <;> by_cases h2 : f.path = [] <;>
      simp [h1, h2, lookupKey, n1, n2, n3, n4, n5, n6, n1.symm, n3.symm, n5.symm, n6.symm]

theorem handed_frame (hX : Laws X) (O O' : Order) (f : Frame (Node X)) (h : Plain f) :
    ∃ n, testRead O f = .ok n ∧ (⟨none⟩ : Handler X).unmarshal O' (.struct frameTy) (some n) (zero X (.struct frameTy)) = .done (Frame.val { f with data := handed f.data }) := by
  obtain ⟨m, hm, hh, -, -⟩ := handed_cases hX O f h
  rw [hh]
  exact frame_node O O' f m hm

/-- And is handled as that frame. -/
theorem onText_handed (hX : Laws X) (reg : Registry S (Node X)) (O O' : Order) (f : Frame (Node X)) (h : Plain f) :
    ∃ n, testRead O' f = .ok n ∧ ∀ c, onText reg O c (some n) = onFrame reg c { f with data := handed f.data } := by
  obtain ⟨n, h1, h2⟩ := handed_frame hX O' O f h
  refine ⟨n, h1, fun c => ?_⟩
  simp only [onText, h2]
  rfl

/-! ### a connection whose objects are registered ones -/

/-- The methods of the channels are those of registered objects. -/
def Known (reg : Registry S (Node X)) (c : Conn S (Node X)) : Prop := ∀ id ms st, lookupKey id c.chans = some (.bound ms st) → ∃ k ∈ reg, k.2.methods = ms

theorem known_chans {reg : Registry S (Node X)} {c c' : Conn S (Node X)} (h : Known reg c) (e : c'.chans = c.chans) : Known reg c' := fun id ms st hl => h id ms st (by rw [← e]; exact hl)

theorem known_store {reg : Registry S (Node X)} {c : Conn S (Node X)} (h : Known reg c) (id : Str) (ch : Chan S (Node X)) (hc : ∀ ms st, ch = .bound ms st → ∃ k ∈ reg, k.2.methods = ms) :
    Known reg (c.store id ch) := by
  intro id' ms st hl
  simp only [Conn.store] at hl
  rw [lookup_insertKey] at hl
  split at hl
  · injection hl with hl
    exact hc ms st hl
  · exact h id' ms st hl

theorem acts_chans (id : Str) (c : Conn S (Node X)) (l : List (Act (Node X))) : (c.acts id l).chans = c.chans := by rw [acts_spec]

theorem send_chans (c : Conn S (Node X)) (f : Frame (Node X)) : (c.send f).chans = c.chans := by unfold Conn.send; split <;> rfl

theorem known_onFrame (reg : Registry S (Node X)) (c : Conn S (Node X)) (f : Frame (Node X)) (h : Known reg c) : Known reg (onFrame reg c f).1 := by
  unfold onFrame
  split
  · exact known_chans h rfl
  · split
    · cases hk : lookupKey f.path reg with
      | none => exact h
      | some k =>
        have hmem := mem_of_lookup hk
        simp only [openChan]
        have h0 : Known reg (c.store f.channel .unbound) := known_store h _ _ fun _ _ e => by cases e
        cases k.fresh with
        | none => exact h0
        | some s =>
          cases k.init with
          | none => exact known_store h0 _ _ fun ms st e => by injection e with e1 e2; exact ⟨_, hmem, e1⟩
          | some i =>
            have h1 : Known reg ((c.store f.channel .unbound).acts f.channel (i s f.data).acts) := known_chans h0 (acts_chans _ _ _)
            simp only
            cases (i s f.data).res with
            | ok => exact known_store h1 _ _ fun ms st e => by injection e with e1 e2; exact ⟨_, hmem, e1⟩
            | err _ _ => exact h1
            | panic => exact h1
    · cases hch : lookupKey f.channel c.chans with
      | none => exact h
      | some ch =>
        cases ch with
        | unbound => exact h
        | bound ms st =>
          simp only [onData]
          cases hm : lookupKey f.path ms with
          | none => exact h
          | some m =>
            have h1 : Known reg ((c.acts f.channel (m st f.data).acts).store f.channel (.bound ms (m st f.data).st)) :=
              known_store (known_chans h (acts_chans _ _ _)) _ _ fun ms' st' e => by injection e with e1 e2; subst e1; exact h _ _ _ hch
            simp only
            cases (m st f.data).res with
            | ok => exact known_chans h1 (send_chans _ _)
            | err _ _ => exact known_chans h1 (by rw [send_chans, send_chans])
            | panic => exact h1

/-- A frame whose data nobody hears the form of is handled the same in either form. -/
theorem onFrame_deaf (reg : Registry S (Node X)) (c : Conn S (Node X)) (f : Frame (Node X)) (h : Known reg c) (n : Node X) (hd : f.data = some n) (hu : Unheard reg f) :
    onFrame reg c f = onFrame reg c { f with data := some n.norm } := by
  obtain ⟨u1, u2⟩ := hu n hd
  obtain ⟨ch, p, t, d⟩ := f
  simp only at hd u1 u2
  subst hd
  unfold onFrame
  simp only
  split
  · rfl
  · split
    · cases hk : lookupKey p reg with
      | none => rfl
      | some k =>
        simp only [openChan]
        cases k.fresh with
        | none => rfl
        | some s =>
          cases hi : k.init with
          | none => rfl
          | some i => simp only [u1 k i hk hi s]
    · cases hch : lookupKey ch c.chans with
      | none => rfl
      | some x =>
        cases x with
        | unbound => rfl
        | bound ms st =>
          obtain ⟨k, hk, rfl⟩ := h _ _ _ hch
          simp only [onData]
          cases hm : lookupKey p k.2.methods with
          | none => rfl
          | some m => simp only [u2 k hk m hm st]

/-- What is handed over and what arrives are handled the same. -/
theorem onFrame_alike (hX : Laws X) (reg : Registry S (Node X)) (c : Conn S (Node X)) (f : Frame (Node X)) (h : Known reg c) (hp : Plain f) (hu : Unheard reg f) :
    onFrame reg c { f with data := handed f.data } = onFrame reg c { f with data := arrives f.data } := by
  obtain ⟨m, -, h2, h3, h4⟩ := handed_cases hX sortedOrder f hp
  rw [← h3]
  cases hd : f.data with
  | none => rfl
  | some n =>
    rw [hd] at h2
    rw [h2]
    cases emptyNode m with
    | true => rfl
    | false =>
      simp only [Bool.false_eq_true, if_false, Option.map_some]
      rcases h4 n hd with e | e
      · subst e
        exact onFrame_deaf reg c { f with data := some m } h m rfl fun n' hn' => by
          injection hn' with hn'; subst hn'; exact hu m hd
      · rw [e, C39_idempotent]

/-! ### executions that mirror each other -/

/-- Lists of alike nodes. -/
inductive All2 {N : Type} (A : N → N → Prop) : List N → List N → Prop where
  | nil : All2 A [] []
  | cons {n m : N} {l k : List N} : A n m → All2 A l k → All2 A (n :: l) (m :: k)

/-- Readers that hold alike nodes. -/
def RAlike {N : Type} (A : N → N → Prop) : Reader N → Reader N → Prop
  | .reading, .reading => True
  | .sending n, .sending m => A n m
  | .done, .done => True
  | _, _ => False

/-- Loops that handle alike nodes. -/
def MAlike {N : Type} (A : N → N → Prop) : Main N → Main N → Prop
  | .waiting, .waiting => True
  | .handling n, .handling m => A n m
  | .exiting, .exiting => True
  | .exited, .exited => True
  | _, _ => False

/-- States that differ only in alike nodes. -/
structure Mirror {N σ : Type} (A : N → N → Prop) (P : σ → Prop) (s t : St N σ) : Prop where
  input : All2 A s.input t.input
  reader : RAlike A s.reader t.reader
  main : MAlike A s.main t.main
  cancelled : t.cancelled = s.cancelled
  app : t.app = s.app
  inv : P s.app

theorem mirror_step {N σ : Type} {h : σ → N → σ × HRes} {A : N → N → Prop} {P : σ → Prop} (hP : ∀ a n, P a → P (h a n).1) (hA : ∀ a n m, P a → A n m → h a m = h a n)
    {s t s' : St N σ} {es : List (Ev N)} (hm : Mirror A P s t) (hs : Step h s es s') : ∃ es' t', Step h t es' t' ∧ Mirror A P s' t' ∧ es'.map Ev.shape = es.map Ev.shape := by
  obtain ⟨m1, m2, m3, m4, m5, m6⟩ := hm
  cases hs with
  | @read n l hr hi =>
    rw [hr] at m2; rw [hi] at m1
    obtain ⟨n', l', a1, a2, e⟩ : ∃ n' l', A n n' ∧ All2 A l l' ∧ t.input = n' :: l' := by
      cases ht : t.input with
      | nil => rw [ht] at m1; cases m1
      | cons n' l' => rw [ht] at m1; cases m1 with | cons a b => exact ⟨n', l', a, b, rfl⟩
    have hr' : t.reader = .reading := by cases ht : t.reader <;> rw [ht] at m2 <;> first | rfl | cases m2
    exact ⟨_, _, .read hr' e, ⟨a2, a1, m3, m4, m5, m6⟩, rfl⟩
  | fail hr =>
    rw [hr] at m2
    have hr' : t.reader = .reading := by cases ht : t.reader <;> rw [ht] at m2 <;> first | rfl | cases m2
    exact ⟨_, _, .fail hr', ⟨m1, trivial, m3, m4, m5, m6⟩, rfl⟩
  | @readerQuit n hr hc =>
    rw [hr] at m2
    obtain ⟨n', hr'⟩ : ∃ n', t.reader = .sending n' := by cases ht : t.reader <;> rw [ht] at m2 <;> first | exact ⟨_, rfl⟩ | cases m2
    exact ⟨_, _, .readerQuit hr' (m4.trans hc), ⟨m1, trivial, m3, m4, m5, m6⟩, rfl⟩
  | cancel => exact ⟨_, _, .cancel, ⟨m1, m2, m3, rfl, m5, m6⟩, rfl⟩
  | @handoff n hr hw =>
    rw [hr] at m2; rw [hw] at m3
    obtain ⟨n', hr', a⟩ : ∃ n', t.reader = .sending n' ∧ A n n' := by cases ht : t.reader <;> rw [ht] at m2 <;> first | exact ⟨_, rfl, m2⟩ | cases m2
    have hw' : t.main = .waiting := by cases ht : t.main <;> rw [ht] at m3 <;> first | rfl | cases m3
    exact ⟨_, _, .handoff hr' hw', ⟨m1, trivial, a, m4, m5, m6⟩, rfl⟩
  | @finish n a hw hh =>
    rw [hw] at m3
    obtain ⟨n', hw', al⟩ : ∃ n', t.main = .handling n' ∧ A n n' := by cases ht : t.main <;> rw [ht] at m3 <;> first | exact ⟨_, rfl, m3⟩ | cases m3
    have he : h t.app n' = (a, .ok) := by rw [m5, hA _ _ _ m6 al, hh]
    have hp := hP s.app n m6
    rw [hh] at hp
    exact ⟨_, _, .finish hw' he, ⟨m1, m2, trivial, m4, rfl, hp⟩, rfl⟩
  | @finishErr n a hw hh =>
    rw [hw] at m3
    obtain ⟨n', hw', al⟩ : ∃ n', t.main = .handling n' ∧ A n n' := by cases ht : t.main <;> rw [ht] at m3 <;> first | exact ⟨_, rfl, m3⟩ | cases m3
    have he : h t.app n' = (a, .err) := by rw [m5, hA _ _ _ m6 al, hh]
    have hp := hP s.app n m6
    rw [hh] at hp
    exact ⟨_, _, .finishErr hw' he, ⟨m1, m2, trivial, m4, rfl, hp⟩, rfl⟩
  | @finishPanic n a hw hh =>
    rw [hw] at m3
    obtain ⟨n', hw', al⟩ : ∃ n', t.main = .handling n' ∧ A n n' := by cases ht : t.main <;> rw [ht] at m3 <;> first | exact ⟨_, rfl, m3⟩ | cases m3
    have he : h t.app n' = (a, .panic) := by rw [m5, hA _ _ _ m6 al, hh]
    have hp := hP s.app n m6
    rw [hh] at hp
    exact ⟨_, _, .finishPanic hw' he, ⟨m1, m2, trivial, m4, rfl, hp⟩, rfl⟩
  | mainCancelled hw hc =>
    rw [hw] at m3
    have hw' : t.main = .waiting := by cases ht : t.main <;> rw [ht] at m3 <;> first | rfl | cases m3
    exact ⟨_, _, .mainCancelled hw' (m4.trans hc), ⟨m1, m2, trivial, m4, m5, m6⟩, rfl⟩
  | mainClosed hw hr =>
    rw [hw] at m3; rw [hr] at m2
    have hw' : t.main = .waiting := by cases ht : t.main <;> rw [ht] at m3 <;> first | rfl | cases m3
    have hr' : t.reader = .done := by cases ht : t.reader <;> rw [ht] at m2 <;> first | rfl | cases m2
    exact ⟨_, _, .mainClosed hw' hr', ⟨m1, by rw [hr, hr']; trivial, trivial, m4, m5, m6⟩, rfl⟩
  | close hw =>
    rw [hw] at m3
    have hw' : t.main = .exiting := by cases ht : t.main <;> rw [ht] at m3 <;> first | rfl | cases m3
    exact ⟨_, _, .close hw', ⟨m1, m2, trivial, m4, m5, m6⟩, rfl⟩

theorem mirror_exec {N σ : Type} {h : σ → N → σ × HRes} {A : N → N → Prop} {P : σ → Prop} (hP : ∀ a n, P a → P (h a n).1) (hA : ∀ a n m, P a → A n m → h a m = h a n)
    {s0 t0 : St N σ} (h0 : Mirror A P s0 t0) {tr : List (Ev N)} {s : St N σ} (he : Exec h s0 tr s) : ∃ tr' t, Exec h t0 tr' t ∧ Mirror A P s t ∧ tr'.map Ev.shape = tr.map Ev.shape := by
  induction he with
  | nil => exact ⟨_, _, .nil, h0, rfl⟩
  | snoc _ hs ih =>
    obtain ⟨tr', t, e, m, hsh⟩ := ih
    obtain ⟨es', t', hs', m', hes⟩ := mirror_step hP hA m hs
    exact ⟨_, _, .snoc e hs', m', by rw [List.map_append, List.map_append, hsh, hes]⟩

theorem all2_flip {N : Type} {A : N → N → Prop} {l m : List N} (h : All2 A l m) : All2 (fun a b => A b a) m l := by
  induction h with
  | nil => exact .nil
  | cons a _ ih => exact .cons a ih

/-- The nodes of the test and those of the websocket. -/
theorem inputs_alike (hX : Laws X) (reg : Registry S (Node X)) (O O' : Order) : ∀ (fs : List (Frame (Node X))), (∀ f ∈ fs, Plain f ∧ Unheard reg f) →
    ∃ (ts : List Str) (ns : List (Option (Node X))), fs.map (sendText O') = ts.map .ok ∧ (ts.map (decode (X := X))) = ns.map some ∧
      All2 (fun a b => ∀ c, Known reg c → onText reg O c b = onText reg O c a) (testReads O' fs) ns
  | [], _ => ⟨[], [], rfl, rfl, .nil⟩
  | f :: fs, h => by
    obtain ⟨ts, ns, h1, h2, h3⟩ := inputs_alike hX reg O O' fs fun g hg => h g (by simp [hg])
    obtain ⟨hp, hu⟩ := h f (by simp)
    obtain ⟨n, k1, k2⟩ := onText_handed hX reg O O' f hp
    obtain ⟨s, n', k3, k4, -⟩ := onText_sent hX reg O O' { } f hp
    refine ⟨s :: ts, n' :: ns, by simp only [List.map_cons, h1, k3], by simp only [List.map_cons, h2, k4], ?_⟩
    simp only [testReads, k1]
    refine .cons (fun c hc => ?_) h3
    obtain ⟨s2, n2, j1, j2, j3⟩ := onText_sent hX reg O O' c f hp
    rw [k3] at j1; injection j1 with j1; subst j1
    rw [k4] at j2; injection j2 with j2; subst j2
    rw [j3, k2, onFrame_alike hX reg c f hc hp hu]

/-! ### C161 -/

/-- **C161.** If the methods do not hear the form of the data, a test goes as a session of the same frames over a websocket: whatever happens in one, in any schedule, can happen in the other,
with the same objects, the same frames sent, the same errors, and the same end. -/
theorem C161_session_partial (hX : Laws X) (reg : Registry S (Node X)) (O O' : Order) (fs : List (Frame (Node X))) (h : ∀ f ∈ fs, Plain f ∧ Unheard reg f) :
    ∃ ts : List Str, fs.map (sendText O') = ts.map .ok ∧
      let test : St (Option (Node X)) (Conn S (Node X)) := { input := testReads O' fs, app := { } }
      let real : St (Option (Node X)) (Conn S (Node X)) := { input := (readLoop (wire (session (ts.map fun t => (false, t)) none))).1, app := { } }
      (∀ tr s, Exec (onText reg O) test tr s → ∃ tr' s', Exec (onText reg O) real tr' s' ∧ tr'.map Ev.shape = tr.map Ev.shape ∧ s'.app = s.app) ∧
      (∀ tr s, Exec (onText reg O) real tr s → ∃ tr' s', Exec (onText reg O) test tr' s' ∧ tr'.map Ev.shape = tr.map Ev.shape ∧ s'.app = s.app) := by
  obtain ⟨ts, ns, h1, h2, h3⟩ := inputs_alike hX reg O O' fs h
  refine ⟨ts, h1, ?_⟩
  have hin : (readLoop (X := X) (wire (session (ts.map fun t => (false, t)) none))).1 = ns := by
    rw [readLoop_session, meant_session _ _ ns]
    rw [List.map_map]
    exact h2
  rw [hin]
  have hP : ∀ (c : Conn S (Node X)) n, Known reg c → Known reg (onText reg O c n).1 := by
    intro c n hc
    unfold onText
    simp only
    split
    · exact known_onFrame reg c _ hc
    · exact hc
    · exact hc
  have hk : Known reg ({ } : Conn S (Node X)) := fun _ _ _ e => by cases e
  refine ⟨fun tr s he => ?_, fun tr s he => ?_⟩
  · obtain ⟨tr', t, a, b, c⟩ := mirror_exec (P := Known reg) hP (fun c n m hc hnm => hnm c hc) (s0 := { input := testReads O' fs, app := { } }) (t0 := { input := ns, app := { } }) ⟨h3, trivial, trivial, rfl, rfl, hk⟩ he
    exact ⟨tr', t, a, c, b.app⟩
  · obtain ⟨tr', t, a, b, c⟩ := mirror_exec (P := Known reg) hP (A := fun a b => ∀ c, Known reg c → onText reg O c a = onText reg O c b) (fun c n m hc hnm => (hnm c hc).symm)
      (s0 := { input := ns, app := { } }) (t0 := { input := testReads O' fs, app := { } }) ⟨all2_flip h3, trivial, trivial, rfl, rfl, hk⟩ he
    exact ⟨tr', t, a, c, b.app⟩

/-- **C161.** What the connection sends reaches the client of the test with the channel, path, type and data, up to its form, that a peer reads from the websocket. -/
theorem C161_replies_partial (hX : Laws X) (O O' : Order) (chans : List Str) (f : Frame (Node X)) (h : Plain f) (hc : f.channel ∈ chans) :
    ∃ g s, testWrite O O' chans f = .ok g ∧ sendText O f = .ok s ∧ recvText O' s = .done (Frame.val { g with data := g.data.map Node.norm }) ∧
      g.channel = f.channel ∧ g.path = f.path ∧ g.type = f.type := by
  obtain ⟨n, h1, h2⟩ := handed_frame hX O O' f h
  obtain ⟨s, h3, h4⟩ := C63_arrives_partial hX O O' f h
  obtain ⟨m, -, -, h5, -⟩ := handed_cases hX O f h
  refine ⟨{ f with data := handed f.data }, s, ?_, h3, ?_, rfl, rfl, rfl⟩
  · simp only [testRead] at h1
    simp only [testWrite, h1, h2]
    exact if_pos (show f.channel ∈ chans from hc)
  · rw [h4, ← h5]

/-- **C161, violated.** The client of a test never learns that the connection gave up: the disconnect frame has no channel, and is refused. A peer reads it. -/
theorem C161_disconnect_violated (hX : Laws X) (O O' : Order) (chans : List Str) (f : Frame (Node X)) (h : Plain f) (hc : f.channel = []) (hn : [] ∉ chans) :
    testWrite O O' chans f = .err ∧ ∃ s, sendText O f = .ok s ∧ recvText O' s = .done (Frame.val { f with data := arrives f.data }) := by
  obtain ⟨n, h1, h2⟩ := handed_frame hX O O' f h
  refine ⟨?_, C63_arrives_partial hX O O' f h⟩
  simp only [testRead] at h1
  simp only [testWrite, h1, h2]
  exact if_neg (show f.channel ∉ chans by rw [hc]; exact hn)

/-- **C161, violated.** Floats that are no numbers reach the methods in a list, though no client could send them over a websocket. -/
theorem C161_float_violated (reg : Registry S (Node X)) (O O' : Order) (f : Frame (Node X)) (x : X.F) (hx : X.fJson x = none) (hf : f.data = some (.list [.float x])) :
    (∃ n, testReads O [f] = [some n] ∧ ∀ c, onText reg O' c (some n) = onFrame reg c f) ∧ sendText O f = .panic := by
  have hm : marshal O .node (f.data : Val X .node) = .ok (.list [.float x]) := by rw [hf]; rfl
  refine ⟨?_, ?_⟩
  · obtain ⟨n, h1, h2⟩ := frame_node O O' f _ hm
    refine ⟨n, by simp only [testReads, h1], fun c => ?_⟩
    simp only [onText, h2]
    obtain ⟨a, b, t, d⟩ := f
    simp only at hf
    subst hf
    rfl
  · have he : (Node.pairs (frameEntries f (!emptyNode (Node.list [.float x])) (.list [.float x]))).encodable = false := by
      unfold frameEntries entry
      by_cases h1 : f.channel = [] <;> by_cases h2 : f.path = [] <;> simp [h1, h2, emptyNode, Node.encodable, Node.pairsEncodable, Node.listEncodable, hx]
    simp only [sendText, marshalJSON, marshal_frame O f _ hm, bind_ok_eq, encode, he, Bool.false_eq_true, if_false]

/-- **C161, violated.** By themselves they end the connection of the test, and what was sent after is not read, nor is anyone told; a client of a websocket gets an error for this frame, sends nothing, and goes on. -/
theorem C161_lost_violated (O : Order) (f : Frame (Node X)) (fs : List (Frame (Node X))) (x : X.F) (hx : X.fJson x = none) (hf : f.data = some (.float x)) :
    testReads O (f :: fs) = [] ∧ sendText O f = .err := by
  have hm : marshal O .node (f.data : Val X .node) = .err := by
    rw [hf]
    simp [marshal, marshalNode, Node.encodable, hx]
  have t1 : parseTag { name := lit "Channel", tag := lit "channel,omitempty" } = some ⟨lit "Channel", lit "channel", true, false⟩ := by decide +kernel
  have t2 : parseTag { name := lit "Path", tag := lit "path,omitempty" } = some ⟨lit "Path", lit "path", true, false⟩ := by decide +kernel
  have t3 : parseTag { name := lit "Type", tag := lit "type" } = some ⟨lit "Type", lit "type", false, false⟩ := by decide +kernel
  have t4 : parseTag { name := lit "Data", tag := lit "data,omitempty" } = some ⟨lit "Data", lit "data", true, false⟩ := by decide +kernel
  have hs : ∀ s : Str, marshal (X := X) O .string (s : Str) = .ok (.str s) := fun _ => rfl
  have key : marshal O (.struct frameTy) f.val = .err := by
    show (marshalFields O frameTy (f.channel, f.path, f.type, f.data, ())).bind (fun l => .ok (Node.pairs l)) = _
    unfold frameTy
    simp only [marshalFields, t1, t2, t3, t4, hm, hs, bind_ok_eq, if_true, Bool.false_eq_true, if_false]
    rfl
  refine ⟨by simp only [testReads, testRead, key], ?_⟩
  simp only [sendText, marshalJSON, key]
  rfl

/-- **C161, violated.** In a struct they end the program: the goroutine that reads for the test panics. -/
theorem C161_crash_violated (O : Order) (f : Frame (Node X)) (name json : Str) (x : X.F) (hx : X.fJson x = none) (hf : f.data = some (.pairs [((name, json), .float x)])) :
    testRead O f = .panic := by
  have hm : marshal O .node (f.data : Val X .node) = .panic := by
    rw [hf]
    simp [marshal, marshalNode, Node.pairsEncodable, Node.encodable, hx]
  have t1 : parseTag { name := lit "Channel", tag := lit "channel,omitempty" } = some ⟨lit "Channel", lit "channel", true, false⟩ := by decide +kernel
  have t2 : parseTag { name := lit "Path", tag := lit "path,omitempty" } = some ⟨lit "Path", lit "path", true, false⟩ := by decide +kernel
  have t3 : parseTag { name := lit "Type", tag := lit "type" } = some ⟨lit "Type", lit "type", false, false⟩ := by decide +kernel
  have t4 : parseTag { name := lit "Data", tag := lit "data,omitempty" } = some ⟨lit "Data", lit "data", true, false⟩ := by decide +kernel
  show (marshalFields O frameTy (f.channel, f.path, f.type, f.data, ())).bind (fun l => .ok (Node.pairs l)) = _
  have hs : ∀ s : Str, marshal (X := X) O .string (s : Str) = .ok (.str s) := fun _ => rfl
  unfold frameTy
  simp only [marshalFields, t1, t2, t3, t4, hm, hs, bind_ok_eq, if_true, Bool.false_eq_true, if_false]
  rfl

end

section
variable {X : Ext} {V : Type} [DecidableEq V]

/-- The data is what a value of the argument's type is marshalled to, and the value survives JSON; or the method takes no argument. -/
def Fits (O : Order) (e : Entry X (List V)) (n : Node X) : Prop := ∀ t, e.argument = some t → ∃ v : Val X t, Faithful true t v ∧ marshal O t v = .ok n

/-- The registered objects, by name, with the values of their fields. -/
def registry (O : Order) (fault : Str → Option (Node X) → Node X × Node X) (bs : List (Str × Builder X V × List V)) : Registry (List V) (Node X) :=
  bs.map fun b => (b.1, b.2.1.toClass O fault b.2.2)

theorem call_deaf (hX : Laws X) (O O' : Order) (fault : Str → Option (Node X) → Node X × Node X) (e : Entry X (List V)) (n : Node X) (h : Fits O' e n) : Deaf (call O fault e) n := by
  intro st
  unfold call
  cases ha : e.argument with
  | none => rfl
  | some t =>
    obtain ⟨v, h1, h2⟩ := h t ha
    haveI : DecidableEq X.F := fun _ _ => Classical.propDecidable _
    haveI : DecidableEq X.T := fun _ _ => Classical.propDecidable _
    obtain ⟨n1, a1, a2⟩ := round hX false O' O ⟨none⟩ t v (Api.faithful_weaken t v h1)
    obtain ⟨n2, b1, b2⟩ := round hX true O' O ⟨none⟩ t v h1
    rw [h2] at a1 b1
    injection a1 with a1
    injection b1 with b1
    subst a1 b1
    have a3 : (⟨none⟩ : Handler X).unmarshal O t (some n) (zero X t) = .done v := a2
    have b3 : (⟨none⟩ : Handler X).unmarshal O t (some n.norm) (zero X t) = .done v := b2
    simp only [a3, b3]
    rfl

/-- **C161.** Methods of registered objects do not hear the form of the data of clients that send values of the types of their arguments, if these survive JSON. -/
theorem C161_typed_partial (hX : Laws X) (O O' : Order) (fault : Str → Option (Node X) → Node X × Node X) (bs : List (Str × Builder X V × List V)) (f : Frame (Node X))
    (h : ∀ n, f.data = some n → ∀ b ∈ bs, (b.1 = f.path → ∀ e, b.2.1.constructor = some e → Fits O' e n) ∧ ∀ e ∈ b.2.1.methods, lowered e.decl.name = some f.path → Fits O' e n) :
    Unheard (registry O fault bs) f := by
  intro n hn
  refine ⟨fun k i hk hi => ?_, fun k hk m hm => ?_⟩
  · obtain ⟨b, hb, he⟩ := List.mem_map.mp (mem_of_lookup hk)
    injection he with he1 he2
    subst he2
    simp only [Builder.toClass] at hi
    cases hc : b.2.1.constructor with
    | none => rw [hc] at hi; cases hi
    | some e =>
      rw [hc] at hi
      injection hi with hi
      subst hi
      exact call_deaf hX O O' fault e n ((h n hn b hb).1 he1 e hc)
  · obtain ⟨b, hb, rfl⟩ := List.mem_map.mp hk
    have hmem := mem_of_lookup hm
    simp only [Builder.toClass, List.mem_filterMap] at hmem
    obtain ⟨e, he, hl⟩ := hmem
    cases hlow : lowered e.decl.name with
    | none => rw [hlow] at hl; cases hl
    | some p =>
      rw [hlow] at hl
      simp only [Option.map_some, Option.some.injEq, Prod.mk.injEq] at hl
      obtain ⟨rfl, rfl⟩ := hl
      exact call_deaf hX O O' fault e n ((h n hn b hb).2 e he hlow)

end

/-! ### a concrete object -/

/-- `type Probe struct{}` with `Kind(c, v any)`, which replies what it finds in a list, and `Half(c, n int8)`. -/
def probeTy : TypeDecl XT Nat :=
  { name := lit "Probe", fields := [],
    methods := [
      { name := lit "Kind", params := [⟨true, .any⟩, ⟨false, .any⟩], run := fun st args => match args with
        | [⟨.any, .list (.i64 _ :: _)⟩] => ⟨st, [.reply (lit "kind") (.str (lit "int"))], .none⟩
        | [⟨.any, .list (.f64 _ :: _)⟩] => ⟨st, [.reply (lit "kind") (.str (lit "float"))], .none⟩
        | _ => ⟨st, [.reply (lit "kind") (.str (lit "other"))], .none⟩ },
      { name := lit "Half", params := [⟨true, .any⟩, ⟨false, .int .w8⟩], run := fun st args => match args with
        | [⟨.int .w8, n⟩] => ⟨st, [.reply (lit "half") (.int (BitVec.toInt n / 2))], .none⟩
        | _ => ⟨st, [], .none⟩ }] }

/-- What is remembered of it. -/
def probe : Builder XT Nat := probeTy.methods.foldl scan ⟨toLowerFirst (utf8 probeTy.name), probeTy, [], none, []⟩

/-- Registered. -/
def probeReg : Registry (List Nat) (Node XT) := registry sortedOrder (fun _ _ => (.nil, .nil)) [(lit "probe", probe, [])]

/-- A client that asks for the kind of the first of `[]any{0}`. -/
def askKind : List (Frame (Node XT)) := [⟨lit "a", lit "probe", lit "open", none⟩, ⟨lit "a", lit "kind", [], some (.list [.int 0])⟩]

/-- A client that asks for half of -7. -/
def askHalf : List (Frame (Node XT)) := [⟨lit "a", lit "probe", lit "open", none⟩, ⟨lit "a", lit "half", [], some (.int (-7))⟩]

/-- The texts sent. -/
def textsOf (fs : List (Frame (Node XT))) : List Str := fs.filterMap fun f => match sendText sortedOrder f with | .ok s => some s | _ => none

/-- **C161, violated.** An integer in a list is one in the test, and a float over a websocket. -/
theorem C161_int_violated : inspect (.ptr probeTy []) = .ok probe ∧ askKind.map (sendText sortedOrder) = (textsOf askKind).map .ok ∧
    (handleAll (onText probeReg sortedOrder) { } (testReads sortedOrder askKind)).2.1.out = [⟨lit "a", lit "kind", [], some (.str (lit "int"))⟩, ⟨lit "a", lit "kind", lit "return", none⟩] ∧
    (handleAll (onText probeReg sortedOrder) { } (readLoop (wire (session ((textsOf askKind).map fun t => (false, t)) none))).1).2.1.out =
      [⟨lit "a", lit "kind", [], some (.str (lit "float"))⟩, ⟨lit "a", lit "kind", lit "return", none⟩] := by
  refine ⟨rfl, ?_, ?_, ?_⟩ <;> decide +kernel

/-- C161: the client that asks for half of a number is one for which a test shows what a websocket does. -/
example : (∀ f ∈ askHalf, Plain f ∧ Unheard probeReg f) ∧
    (handleAll (onText probeReg sortedOrder) { } (testReads sortedOrder askHalf)).2.1.out = [⟨lit "a", lit "half", [], some (.int (-4))⟩, ⟨lit "a", lit "half", lit "return", none⟩] := by
  refine ⟨?_, by decide +kernel⟩
  simp only [askHalf, List.mem_cons, List.not_mem_nil, or_false, forall_eq_or_imp, forall_eq]
  refine ⟨⟨(fun n hn => by cases hn), (fun n hn => by cases hn)⟩, (fun n hn => by injection hn with hn; subst hn; exact ⟨trivial, rfl, by show 0 < maxDepth; decide⟩), ?_⟩
  refine C161_typed_partial XT_laws sortedOrder sortedOrder _ _ _ fun n hn b hb => ?_
  injection hn with hn
  subst hn
  simp only [List.mem_singleton] at hb
  subst hb
  refine ⟨fun h => absurd h (by decide), fun e he hl t ht => ?_⟩
  have hs : probe.methods.map (fun e => (lowered e.decl.name, e.argument)) = [(some (lit "kind"), some .any), (some (lit "half"), some (.int .w8))] := rfl
  have hmem : (lowered e.decl.name, e.argument) ∈ probe.methods.map (fun e => (lowered e.decl.name, e.argument)) := List.mem_map_of_mem he
  rw [hs, hl, ht] at hmem
  simp only [List.mem_cons, List.not_mem_nil, or_false, Prod.mk.injEq, Option.some.injEq] at hmem
  rcases hmem with h | ⟨-, rfl⟩
  · exact absurd h.1 (by decide)
  · exact ⟨(-7 : BitVec 8), trivial, rfl⟩

/-- C161: what the client of the test gets, and what is on the wire. -/
example : (testWrite sortedOrder sortedOrder [lit "a"] (⟨lit "a", lit "half", [], some (.list [.int 3])⟩ : Frame (Node XT)) = .ok ⟨lit "a", lit "half", [], some (.list [.int 3])⟩) ∧
    sendText (X := XT) sortedOrder ⟨lit "a", lit "half", [], some (.list [.int 3])⟩ = .ok (lit "{\"channel\":\"a\",\"path\":\"half\",\"type\":\"\",\"data\":[3]}") := by decide +kernel

end Verif.Ws.TestWire

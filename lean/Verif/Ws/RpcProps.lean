import Verif.Ws.Rpc
/-!
# Properties of RPC over websockets (C61, C62, C91-C93)
-/
set_option autoImplicit false
namespace Verif.Ws
open Verif.Strconv Verif.Enc

section
variable {S N : Type}

/-! ### a frame touches its channel only -/

/-- Setting the channel, if there is something to set. -/
def Conn.put (c : Conn S N) (id : Str) : Option (Chan S N) → Conn S N
  | none => c
  | some ch => c.store id ch

/-- Two connections that can not be told apart: the same channels (looked up), the same frames sent, both closed or both open. -/
def Conn.Same (c c' : Conn S N) : Prop := (∀ id, lookupKey id c.chans = lookupKey id c'.chans) ∧ c.out = c'.out ∧ c.closed = c'.closed

theorem Conn.Same.refl (c : Conn S N) : c.Same c := ⟨fun _ => rfl, rfl, rfl⟩

theorem lookup_store (c : Conn S N) (id k : Str) (ch : Chan S N) : lookupKey k (c.store id ch).chans = if k = id then some ch else lookupKey k c.chans :=
  lookup_insertKey id k ch c.chans

/-- C61 (the whole of it): a frame that is no close does to the connection what its channel on its own does, `chanStep`: it depends on the state of that channel alone, changes
that channel alone, and what it sends is sent on the connection as long as that is open. -/
theorem C61_refines (reg : Registry S N) (c : Conn S N) (f : Frame N) (hc : f.type ≠ lit "close") :
    (onFrame reg c f).2 = (chanStep reg (lookupKey f.channel c.chans) f).2.2 ∧
    (onFrame reg c f).1.Same ((c.put f.channel (chanStep reg (lookupKey f.channel c.chans) f).1).apply (chanStep reg (lookupKey f.channel c.chans) f).2.1) := by
  have hnil : ∀ c : Conn S N, c.apply [] = c := fun c => by rcases c with ⟨a, b, _ | _⟩ <;> simp [Conn.apply, effOut, effCloses]
  have hput : ∀ (id : Str) (c : Conn S N), c.Same ((c.put id (lookupKey id c.chans)).apply []) := by
    intro id c
    rw [hnil]
    cases hl : lookupKey id c.chans with
    | none => exact .refl _
    | some ch =>
      refine ⟨fun k => ?_, rfl, rfl⟩
      rw [Conn.put, lookup_store]
      split
      · rename_i hk; rw [hk, hl]
      · rfl
  have hstore : ∀ (c : Conn S N) (id : Str) (a b : Chan S N) (es : List (Eff N)), (((c.store id a).apply es).store id b).Same ((c.store id b).apply es) := by
    intro c id a b es
    refine ⟨fun k => ?_, rfl, rfl⟩
    show lookupKey k (((c.store id a).apply es).store id b).chans = lookupKey k (c.store id b).chans
    rw [lookup_store, lookup_store]
    show (if k = id then some b else lookupKey k (c.store id a).chans) = _
    rw [lookup_store]
    split <;> rfl
  unfold onFrame chanStep
  rw [if_neg hc]
  by_cases hn : f.type = lit "new" ∨ f.type = lit "open"
  · rw [if_pos hn, if_pos hn]
    cases hk : lookupKey f.path reg with
    | none => exact ⟨rfl, hput _ _⟩
    | some k =>
      obtain ⟨fresh, init, methods⟩ := k
      simp only [openChan]
      cases fresh with
      | none => exact ⟨rfl, by rw [hnil]; exact .refl _⟩
      | some s =>
        cases init with
        | none =>
          refine ⟨rfl, ?_⟩
          have := hstore c f.channel .unbound (.bound methods s) []
          rw [hnil] at this
          exact this
        | some i =>
          obtain ⟨⟨s', as, r⟩, ho⟩ : ∃ o, i s f.data = o := ⟨_, rfl⟩
          simp only [ho]
          cases r with
          | ok => exact ⟨rfl, by rw [Conn.acts_eq]; exact hstore _ _ _ _ _⟩
          | err v t => exact ⟨rfl, by rw [Conn.acts_eq]; exact .refl _⟩
          | panic => exact ⟨rfl, by rw [Conn.acts_eq]; exact .refl _⟩
  · rw [if_neg hn, if_neg hn]
    cases hl : lookupKey f.channel c.chans with
    | none => exact ⟨rfl, by rw [hnil]; exact .refl _⟩
    | some ch =>
      have hsame := hput f.channel c
      rw [hl] at hsame
      cases ch with
      | unbound => exact ⟨rfl, hsame⟩
      | bound ms st =>
        simp only [onData]
        cases hm : lookupKey f.path ms with
        | none => exact ⟨rfl, hsame⟩
        | some m =>
          obtain ⟨⟨s', as, r⟩, ho⟩ : ∃ o, m st f.data = o := ⟨_, rfl⟩
          simp only [ho]
          cases r with
          | ok =>
            refine ⟨rfl, ?_⟩
            simp only [Conn.acts_eq, Conn.send_eq, Conn.apply_store, Conn.apply_append]
            exact .refl _
          | err v t =>
            refine ⟨rfl, ?_⟩
            simp only [Conn.acts_eq, Conn.send_eq, Conn.apply_store, Conn.apply_append, List.append_assoc, List.singleton_append, List.cons_append, List.nil_append]
            exact .refl _
          | panic => exact ⟨rfl, by rw [Conn.acts_eq, Conn.apply_store]; exact .refl _⟩

theorem mem_effOut (b : Bool) : ∀ (l : List (Eff N)) (f : Frame N), f ∈ effOut b l → .send f ∈ l
  | [], f, h => by cases b <;> simp [effOut] at h
  | .send g :: l, f, h => by
    cases b with
    | true => simp [effOut] at h
    | false =>
      simp only [effOut, List.mem_cons] at h
      rcases h with rfl | h
      · simp
      · exact List.mem_cons_of_mem _ (mem_effOut false l f h)
  | .close :: l, f, h => by cases b <;> simp [effOut] at h

theorem chanStep_channel (reg : Registry S N) (cur : Option (Chan S N)) (f g : Frame N) (h : .send g ∈ (chanStep reg cur f).2.1) : g.channel = f.channel := by
  have hacts : ∀ as : List (Act N), .send g ∈ as.map (Act.eff f.channel) → g.channel = f.channel := by
    intro as h
    obtain ⟨a, -, ha⟩ := List.mem_map.mp h
    cases a with
    | reply p d => injection ha with ha; rw [← ha]
    | close => cases ha
  unfold chanStep at h
  repeat' split at h
  all_goals try dsimp only at h
  all_goals first
    | exact absurd h List.not_mem_nil
    | exact hacts _ h
    | skip
  all_goals
    rcases List.mem_append.mp h with h | h
    · exact hacts _ h
    · simp only [List.mem_cons, List.not_mem_nil, or_false, Eff.send.injEq] at h
      first | (rw [h]) | (rcases h with h | h <;> rw [h])

/-- C61: a frame changes no channel but its own, and all that is sent while it is handled is for its channel. -/
theorem C61_own_channel (reg : Registry S N) (c : Conn S N) (f : Frame N) :
    (∀ id, id ≠ f.channel → lookupKey id (onFrame reg c f).1.chans = lookupKey id c.chans) ∧
    ∃ sent, (onFrame reg c f).1.out = c.out ++ sent ∧ ∀ g ∈ sent, g.channel = f.channel := by
  by_cases hc : f.type = lit "close"
  · simp only [onFrame, if_pos hc]
    exact ⟨fun _ _ => rfl, [], by simp [Conn.close], by simp⟩
  · obtain ⟨-, h1, h2, -⟩ := C61_refines reg c f hc
    generalize hst : chanStep reg (lookupKey f.channel c.chans) f = st at h1 h2
    refine ⟨fun id hid => ?_, effOut c.closed st.2.1, ?_, fun g hg => ?_⟩
    · rw [h1]
      show lookupKey id (c.put f.channel st.1).chans = _
      cases st.1 with
      | none => rfl
      | some ch => rw [Conn.put, lookup_store, if_neg hid]
    · rw [h2]
      have e : (c.put f.channel st.1).out = c.out ∧ (c.put f.channel st.1).closed = c.closed := by cases st.1 <;> exact ⟨rfl, rfl⟩
      show (c.put f.channel st.1).out ++ effOut (c.put f.channel st.1).closed st.2.1 = _
      rw [e.1, e.2]
    · have := mem_effOut _ _ _ hg
      rw [← hst] at this
      exact chanStep_channel reg _ f g this

/-! ### channels do not see each other -/

/-- Two connections that one channel can not tell apart. -/
def Conn.SameFor (ch : Str) (c c' : Conn S N) : Prop :=
  lookupKey ch c.chans = lookupKey ch c'.chans ∧ c.out.filter (fun f => f.channel = ch) = c'.out.filter (fun f => f.channel = ch) ∧ c.closed = c'.closed

theorem onFrame_closed (reg : Registry S N) (c : Conn S N) (f : Frame N) (h : (onFrame reg c f).1.closed = false) : c.closed = false ∧ f.type ≠ lit "close" := by
  by_cases hc : f.type = lit "close"
  · simp [onFrame, if_pos hc, Conn.close] at h
  · obtain ⟨-, -, -, h3⟩ := C61_refines reg c f hc
    rw [h3] at h
    generalize chanStep reg (lookupKey f.channel c.chans) f = st at h
    have e : (c.put f.channel st.1).closed = c.closed := by cases st.1 <;> rfl
    refine ⟨?_, hc⟩
    simp only [Conn.apply, e, Bool.or_eq_false_iff] at h
    exact h.1

theorem onFrame_sameFor (reg : Registry S N) (c c' : Conn S N) (f : Frame N) (hs : c.SameFor f.channel c') (hc : f.type ≠ lit "close") :
    (onFrame reg c f).1.SameFor f.channel (onFrame reg c' f).1 ∧ (onFrame reg c f).2 = (onFrame reg c' f).2 := by
  obtain ⟨r1, r2, r3, r4⟩ := C61_refines reg c f hc
  obtain ⟨t1, t2, t3, t4⟩ := C61_refines reg c' f hc
  rw [← hs.1] at t1 t2 t3 t4
  generalize hst : chanStep reg (lookupKey f.channel c.chans) f = st at r1 r2 r3 r4 t1 t2 t3 t4
  have e : ∀ c : Conn S N, (c.put f.channel st.1).out = c.out ∧ (c.put f.channel st.1).closed = c.closed := by intro c; cases st.1 <;> exact ⟨rfl, rfl⟩
  refine ⟨⟨?_, ?_, ?_⟩, by rw [r1, t1]⟩
  · rw [r2, t2]
    show lookupKey _ (c.put f.channel st.1).chans = lookupKey _ (c'.put f.channel st.1).chans
    cases st.1 with
    | none => exact hs.1
    | some ch => rw [Conn.put, Conn.put, lookup_store, lookup_store, if_pos rfl, if_pos rfl]
  · rw [r3, t3]
    simp only [Conn.apply, (e c).1, (e c').1, (e c).2, (e c').2, List.filter_append, hs.2.1, hs.2.2]
  · rw [r4, t4]
    simp only [Conn.apply, (e c).2, (e c').2, hs.2.2]

/-- An open connection on which a frame for another channel was handled looks the same to this one. -/
theorem onFrame_other (reg : Registry S N) (c : Conn S N) (f : Frame N) (ch : Str) (hne : f.channel ≠ ch) (ho : (onFrame reg c f).1.closed = false) : c.SameFor ch (onFrame reg c f).1 := by
  obtain ⟨h1, sent, h2, h3⟩ := C61_own_channel reg c f
  refine ⟨(h1 ch (fun h => hne h.symm)).symm, ?_, by rw [(onFrame_closed reg c f ho).1, ho]⟩
  rw [h2, List.filter_append]
  have : sent.filter (fun f => f.channel = ch) = [] := by
    rw [List.filter_eq_nil_iff]
    intro g hg
    simp only [decide_eq_true_eq]
    rw [h3 g hg]
    exact hne
  rw [this, List.append_nil]

theorem runFrames_closed (reg : Registry S N) : ∀ (fs : List (Frame N)) (c : Conn S N), (runFrames reg c fs).1.closed = false → c.closed = false
  | [], _, h => h
  | f :: fs, c, h => by
    simp only [runFrames] at h
    obtain ⟨⟨c1, r⟩, ho⟩ : ∃ o, onFrame reg c f = o := ⟨_, rfl⟩
    rw [ho] at h
    have h1 : (onFrame reg c f).1.closed = false := by
      rw [ho]
      cases r with
      | ok => exact runFrames_closed reg fs c1 h
      | err => exact h
      | panic => exact h
    exact (onFrame_closed reg c f h1).1

theorem isolated (reg : Registry S N) (ch : Str) : ∀ (fs : List (Frame N)) (c c' : Conn S N), c.SameFor ch c' → (runFrames reg c fs).2 = .ok → (runFrames reg c fs).1.closed = false →
    (runFrames reg c' (fs.filter (fun f => f.channel = ch))).2 = .ok ∧ (runFrames reg c fs).1.SameFor ch (runFrames reg c' (fs.filter (fun f => f.channel = ch))).1
  | [], _, _, hs, _, _ => ⟨rfl, hs⟩
  | f :: fs, c, c', hs, hok, hcl => by
    obtain ⟨⟨c1, r⟩, ho⟩ : ∃ o, onFrame reg c f = o := ⟨_, rfl⟩
    simp only [runFrames, ho] at hok hcl ⊢
    cases r with
    | err => simp at hok
    | panic => simp at hok
    | ok =>
      simp only at hok hcl ⊢
      have h1 : (onFrame reg c f).1.closed = false := by rw [ho]; exact runFrames_closed reg fs c1 hcl
      by_cases hf : f.channel = ch
      · subst hf
        obtain ⟨k1, k2⟩ := onFrame_sameFor reg c c' f hs (onFrame_closed reg c f h1).2
        obtain ⟨⟨c1', r'⟩, ho'⟩ : ∃ o, onFrame reg c' f = o := ⟨_, rfl⟩
        rw [ho, ho'] at k1 k2
        simp only at k1 k2
        subst k2
        rw [List.filter_cons_of_pos (by simp)]
        simp only [runFrames, ho']
        exact isolated reg f.channel fs c1 c1' k1 hok hcl
      · rw [List.filter_cons_of_neg (by simpa using hf)]
        have k := onFrame_other reg c f ch hf h1
        rw [ho] at k
        exact isolated reg ch fs c1 c' ⟨k.1.symm.trans hs.1, k.2.1.symm.trans hs.2.1, k.2.2.symm.trans hs.2.2⟩ hok hcl

/-- C61: channels do not see each other. After any number of frames handled on an open connection, a channel is in the state, and has sent the frames, it would be in and would
have sent if the frames for the other channels had never come. -/
theorem C61_isolated (reg : Registry S N) (c : Conn S N) (fs : List (Frame N)) (hok : (runFrames reg c fs).2 = .ok) (ho : (runFrames reg c fs).1.closed = false) (ch : Str) :
    let alone := runFrames reg c (fs.filter (fun f => f.channel = ch))
    alone.2 = .ok ∧ lookupKey ch (runFrames reg c fs).1.chans = lookupKey ch alone.1.chans ∧
      (runFrames reg c fs).1.out.filter (fun f => f.channel = ch) = alone.1.out.filter (fun f => f.channel = ch) := by
  obtain ⟨h1, h2, h3, -⟩ := isolated reg ch fs c c ⟨rfl, rfl, rfl⟩ hok ho
  exact ⟨h1, h2, h3⟩

/-! ### what a frame does -/

/-- C61: an open binds a new instance to the channel, whatever was there: its state is the template's, changed by `Init` alone. -/
theorem C61_open (reg : Registry S N) (c : Conn S N) (f : Frame N) (ht : f.type = lit "new" ∨ f.type = lit "open") (k : Class S N) (hk : lookupKey f.path reg = some k) (s : S) (hs : k.fresh = some s)
    (hi : ∀ i, k.init = some i → (i s f.data).res = .ok) :
    (onFrame reg c f).2 = .ok ∧ lookupKey f.channel (onFrame reg c f).1.chans = some (.bound k.methods (match k.init with | none => s | some i => (i s f.data).st)) := by
  have hc : f.type ≠ lit "close" := by
    rcases ht with h | h <;> rw [h] <;> decide
  obtain ⟨r1, r2, -, -⟩ := C61_refines reg c f hc
  rw [r1, r2]
  have hst : chanStep reg (lookupKey f.channel c.chans) f = chanStep reg (lookupKey f.channel c.chans) f := rfl
  conv at hst => rhs; unfold chanStep
  rw [if_pos ht, hk] at hst
  obtain ⟨fresh, init, methods⟩ := k
  simp only at hs hi
  subst hs
  cases init with
  | none =>
    simp only at hst
    rw [hst]
    refine ⟨rfl, ?_⟩
    show lookupKey f.channel (c.store f.channel _).chans = _
    rw [lookup_store, if_pos rfl]
  | some i =>
    have hok := hi i rfl
    obtain ⟨⟨s', as, r⟩, ho⟩ : ∃ o, i s f.data = o := ⟨_, rfl⟩
    rw [ho] at hok
    simp only at hok
    subst hok
    simp only [ho] at hst
    rw [hst]
    refine ⟨rfl, ?_⟩
    show lookupKey f.channel (c.store f.channel _).chans = _
    rw [lookup_store, if_pos rfl]
    simp only [ho]

/-- C61: a data frame runs the method named by its path, on the instance of its channel, once. Its error is reported on the channel and the connection goes on; its panic ends the connection. -/
theorem C61_call (reg : Registry S N) (c : Conn S N) (f : Frame N) (ht : f.type ≠ lit "new" ∧ f.type ≠ lit "open" ∧ f.type ≠ lit "close") (ms : List (Str × Method S N)) (st : S)
    (hch : lookupKey f.channel c.chans = some (.bound ms st)) (m : Method S N) (hm : lookupKey f.path ms = some m) :
    lookupKey f.channel (onFrame reg c f).1.chans = some (.bound ms (m st f.data).st) ∧
    (c.closed = false → (∀ a ∈ (m st f.data).acts, ∃ p d, a = .reply p d) → ∃ replies : List (Str × N), (m st f.data).acts = replies.map (fun r => .reply r.1 r.2) ∧
      (onFrame reg c f).1.out = c.out ++ replies.map (fun r => ⟨f.channel, r.1, [], some r.2⟩) ++
        match (m st f.data).res with
        | .ok => [⟨f.channel, f.path, lit "return", none⟩]
        | .err v t => [⟨f.channel, f.path, lit "return", some v⟩, ⟨f.channel, [], lit "error", some t⟩]
        | .panic => []) ∧
    (onFrame reg c f).2 = (match (m st f.data).res with | .ok => .ok | .err _ _ => .ok | .panic => .err) := by
  obtain ⟨r1, r2, r3, -⟩ := C61_refines reg c f ht.2.2
  rw [r1, r2, r3]
  have hst : chanStep reg (lookupKey f.channel c.chans) f = chanStep reg (lookupKey f.channel c.chans) f := rfl
  conv at hst => rhs; unfold chanStep
  rw [if_neg (by rintro (h | h); exact ht.1 h; exact ht.2.1 h), hch] at hst
  simp only [hm] at hst
  rw [hch]
  have hreplies : ∀ as : List (Act N), (∀ a ∈ as, ∃ p d, a = .reply p d) → ∃ replies : List (Str × N), as = replies.map (fun r => .reply r.1 r.2) ∧
      ∀ es : List (Eff N), effOut false (as.map (Act.eff f.channel) ++ es) = replies.map (fun r => ⟨f.channel, r.1, [], some r.2⟩) ++ effOut false es := by
    intro as
    induction as with
    | nil => exact fun _ => ⟨[], rfl, fun _ => rfl⟩
    | cons a as ih =>
      intro h
      obtain ⟨p, d, rfl⟩ := h a (by simp)
      obtain ⟨rs, h1, h2⟩ := ih (fun b hb => h b (List.mem_cons_of_mem _ hb))
      refine ⟨(p, d) :: rs, by rw [h1]; rfl, fun es => ?_⟩
      simp only [List.map_cons, Act.eff, List.cons_append, effOut, h2]
  obtain ⟨⟨s', as, r⟩, ho⟩ : ∃ o, m st f.data = o := ⟨_, rfl⟩
  simp only [ho] at hst ⊢
  cases r with
  | ok =>
    simp only at hst
    rw [hst]
    refine ⟨by show lookupKey f.channel (c.store f.channel _).chans = _; rw [lookup_store, if_pos rfl], fun ho hr => ?_, rfl⟩
    obtain ⟨rs, h1, h2⟩ := hreplies as hr
    refine ⟨rs, h1, ?_⟩
    show c.out ++ effOut c.closed _ = _
    rw [ho, h2, List.append_assoc]; rfl
  | err v t =>
    simp only at hst
    rw [hst]
    refine ⟨by show lookupKey f.channel (c.store f.channel _).chans = _; rw [lookup_store, if_pos rfl], fun ho hr => ?_, rfl⟩
    obtain ⟨rs, h1, h2⟩ := hreplies as hr
    refine ⟨rs, h1, ?_⟩
    show c.out ++ effOut c.closed _ = _
    rw [ho, h2, List.append_assoc]; rfl
  | panic =>
    simp only at hst
    rw [hst]
    refine ⟨by show lookupKey f.channel (c.store f.channel _).chans = _; rw [lookup_store, if_pos rfl], fun ho hr => ?_, rfl⟩
    obtain ⟨rs, h1, h2⟩ := hreplies as hr
    refine ⟨rs, h1, ?_⟩
    have := h2 []
    rw [List.append_nil] at this
    show c.out ++ effOut c.closed (as.map (Act.eff f.channel)) = _
    rw [ho, this, List.append_assoc]; rfl

/-- C61: frames for unknown objects, channels and methods are errors, and change nothing. -/
theorem C61_unknown (reg : Registry S N) (c : Conn S N) (f : Frame N) (hc : f.type ≠ lit "close")
    (h : if f.type = lit "new" ∨ f.type = lit "open" then lookupKey f.path reg = none
      else lookupKey f.channel c.chans = none ∨ ∃ ms st, lookupKey f.channel c.chans = some (.bound ms st) ∧ lookupKey f.path ms = none) :
    onFrame reg c f = (c, .err) := by
  unfold onFrame
  rw [if_neg hc]
  by_cases hn : f.type = lit "new" ∨ f.type = lit "open"
  · rw [if_pos hn] at h ⊢
    rw [h]
  · rw [if_neg hn] at h ⊢
    rcases h with h | ⟨ms, st, h, h2⟩
    · rw [h]
    · simp only [h, onData, h2]

/-- The connection's handler, run by the loop of C60, is `runFrames` on the frames that can be read: what is proved of it holds in every schedule. -/
theorem C61_loop (reg : Registry S N) : ∀ (fs : List (Frame N)) (c : Conn S N), (handleAll (onNode reg) c (fs.map some)).2 = runFrames reg c fs
  | [], _ => rfl
  | f :: fs, c => by
    obtain ⟨⟨c1, r⟩, ho⟩ : ∃ o, onFrame reg c f = o := ⟨_, rfl⟩
    simp only [List.map_cons, handleAll, onNode, runFrames, ho]
    cases r with
    | ok => exact C61_loop reg fs c1
    | err => rfl
    | panic => rfl

/-- What can not be read as a frame ends the connection with an error, if nothing before it did; what comes later is not looked at. -/
theorem C61_unreadable (reg : Registry S N) (rest : List (Option (Frame N))) : ∀ (fs : List (Frame N)) (c : Conn S N),
    (handleAll (onNode reg) c (fs.map some ++ none :: rest)).2 = (if (runFrames reg c fs).2 = .ok then ((runFrames reg c fs).1, .err) else runFrames reg c fs)
  | [], _ => rfl
  | f :: fs, c => by
    obtain ⟨⟨c1, r⟩, ho⟩ : ∃ o, onFrame reg c f = o := ⟨_, rfl⟩
    simp only [List.map_cons, List.cons_append, handleAll, onNode, runFrames, ho]
    cases r with
    | ok => exact C61_unreadable reg rest fs c1
    | err => rfl
    | panic => rfl

/-! ### C62: a failed constructor -/

/-- C62: after a failed `Init` no method of the object can be called on the channel: any data frame for it is an error. -/
theorem C62_unusable_partial (reg : Registry S N) (c : Conn S N) (f : Frame N) (ht : f.type = lit "new" ∨ f.type = lit "open") (k : Class S N) (hk : lookupKey f.path reg = some k) (s : S) (hs : k.fresh = some s)
    (i : Method S N) (hi : k.init = some i) (v t : N) (hf : (i s f.data).res = .err v t) (g : Frame N) (hg : g.type ≠ lit "new" ∧ g.type ≠ lit "open" ∧ g.type ≠ lit "close") (hch : g.channel = f.channel) :
    onFrame reg (onFrame reg c f).1 g = ((onFrame reg c f).1, .err) := by
  have hc : f.type ≠ lit "close" := by
    rcases ht with h | h <;> rw [h] <;> decide
  obtain ⟨-, r2, -, -⟩ := C61_refines reg c f hc
  have hl : lookupKey f.channel (onFrame reg c f).1.chans = some .unbound := by
    rw [r2]
    have hst : chanStep reg (lookupKey f.channel c.chans) f = chanStep reg (lookupKey f.channel c.chans) f := rfl
    conv at hst => rhs; unfold chanStep
    rw [if_pos ht, hk] at hst
    obtain ⟨fresh, init, methods⟩ := k
    simp only at hs hi
    subst hs hi
    obtain ⟨⟨s', as, r⟩, ho⟩ : ∃ o, i s f.data = o := ⟨_, rfl⟩
    rw [ho] at hf
    simp only at hf
    subst hf
    simp only [ho] at hst
    rw [hst]
    show lookupKey f.channel (c.store f.channel _).chans = _
    rw [lookup_store, if_pos rfl]
  generalize (onFrame reg c f).1 = c1 at hl ⊢
  unfold onFrame
  rw [if_neg hg.2.2, if_neg (by rintro (h | h); exact hg.1 h; exact hg.2.1 h), hch, hl]
  rfl

/-- C62: but the client is not told. The open is handled as a success, nothing is sent but what `Init` itself sent, and the channel is registered; it is the first call on it
that fails, and ends the whole connection. -/
theorem C62_violated (reg : Registry S N) (c : Conn S N) (f : Frame N) (ht : f.type = lit "new" ∨ f.type = lit "open") (k : Class S N) (hk : lookupKey f.path reg = some k) (s : S) (hs : k.fresh = some s)
    (i : Method S N) (hi : k.init = some i) (v t : N) (hf : (i s f.data).res = .err v t) (hsilent : (i s f.data).acts = []) :
    (onFrame reg c f).2 = .ok ∧ (onFrame reg c f).1.out = c.out ∧ (lookupKey f.channel (onFrame reg c f).1.chans).isSome := by
  have hc : f.type ≠ lit "close" := by
    rcases ht with h | h <;> rw [h] <;> decide
  obtain ⟨fresh, init, methods⟩ := k
  simp only at hs hi
  subst hs hi
  obtain ⟨⟨s', as, r⟩, ho⟩ : ∃ o, i s f.data = o := ⟨_, rfl⟩
  rw [ho] at hf hsilent
  simp only at hf hsilent
  subst hf hsilent
  have e : onFrame reg c f = (c.store f.channel .unbound, .ok) := by
    unfold onFrame
    rw [if_neg hc, if_pos ht, hk]
    simp only [openChan, ho]
    rfl
  rw [e]
  exact ⟨rfl, rfl, by rw [lookup_store, if_pos rfl]; rfl⟩

/-! ### C91: closing a channel -/

/-- C91: a close frame is answered by closing the whole connection: the channel is still there, and nothing reaches the client anymore, on no channel. -/
theorem C91_violated (reg : Registry S N) (c : Conn S N) (f : Frame N) (hc : f.type = lit "close") :
    onFrame reg c f = ({ c with closed := true }, .ok) ∧ ∀ fs : List (Frame N), (runFrames reg (onFrame reg c f).1 fs).1.out = c.out := by
  have e : onFrame reg c f = ({ c with closed := true }, .ok) := by simp [onFrame, hc, Conn.close]
  refine ⟨e, fun fs => ?_⟩
  have key : ∀ (fs : List (Frame N)) (c : Conn S N), c.closed = true → (runFrames reg c fs).1.out = c.out := by
    intro fs
    induction fs with
    | nil => exact fun _ _ => rfl
    | cons f fs ih =>
      intro c hcl
      have hstep : (onFrame reg c f).1.out = c.out ∧ (onFrame reg c f).1.closed = true := by
        by_cases hc : f.type = lit "close"
        · simp [onFrame, hc, Conn.close]
        · obtain ⟨-, -, r3, r4⟩ := C61_refines reg c f hc
          rw [r3, r4]
          generalize chanStep reg (lookupKey f.channel c.chans) f = st
          have e : (c.put f.channel st.1).out = c.out ∧ (c.put f.channel st.1).closed = c.closed := by cases st.1 <;> exact ⟨rfl, rfl⟩
          simp [Conn.apply, e.1, e.2, hcl, effOut]
      obtain ⟨⟨c1, r⟩, ho⟩ : ∃ o, onFrame reg c f = o := ⟨_, rfl⟩
      rw [ho] at hstep
      simp only [runFrames, ho]
      cases r with
      | ok => exact (ih c1 hstep.2).trans hstep.1
      | err => exact hstep.1
      | panic => exact hstep.1
  rw [e]
  exact key fs _ rfl

/-- C91: what is right about it: the channel gets nothing sent anymore. -/
theorem C91_silent_partial (reg : Registry S N) (c : Conn S N) (f : Frame N) (hc : f.type = lit "close") (fs : List (Frame N)) :
    (runFrames reg (onFrame reg c f).1 fs).1.out.filter (fun g => g.channel = f.channel) = c.out.filter (fun g => g.channel = f.channel) := by
  rw [(C91_violated reg c f hc).2 fs]

/-! ### C92: the end of a connection is announced -/

/-- C92: an error or a method's panic ends the connection with a disconnect frame (C60): the handler reports them as errors. The only panic that is not caught is one while a channel is opened. -/
theorem C92_panic_partial (reg : Registry S N) (c : Conn S N) (f : Frame N) (h : (onFrame reg c f).2 = .panic) : f.type = lit "new" ∨ f.type = lit "open" := by
  refine Decidable.byContradiction fun hn => ?_
  have hc : f.type ≠ lit "close" := by intro hc; simp [onFrame, hc] at h
  rw [(C61_refines reg c f hc).1] at h
  unfold chanStep at h
  rw [if_neg hn] at h
  repeat' split at h
  all_goals cases h

/-- C92: an `Init` that panics ends the connection without a disconnect frame. -/
theorem C92_violated (reg : Registry S N) (f : Frame N) (ht : f.type = lit "new" ∨ f.type = lit "open") (k : Class S N) (hk : lookupKey f.path reg = some k) (s : S) (hs : k.fresh = some s)
    (i : Method S N) (hi : k.init = some i) (hp : (i s f.data).res = .panic) :
    ∃ tr s', Exec (onNode reg) { input := [some f], app := { } } tr s' ∧ s'.main = .exited ∧ tr.countP Ev.isDisconnect = 0 ∧ .finish (some f) .panic ∈ tr := by
  have hc : f.type ≠ lit "close" := by
    rcases ht with h | h <;> rw [h] <;> decide
  have hres : (onNode reg ({ } : Conn S N) (some f)).2 = .panic := by
    show (onFrame reg ({ } : Conn S N) f).2 = _
    rw [(C61_refines reg _ f hc).1]
    obtain ⟨fresh, init, methods⟩ := k
    simp only at hs hi
    subst hs hi
    obtain ⟨⟨s', as, r⟩, ho⟩ : ∃ o, i s f.data = o := ⟨_, rfl⟩
    rw [ho] at hp
    simp only at hp
    subst hp
    unfold chanStep
    rw [if_pos ht, hk]
    simp only [ho]
  obtain ⟨⟨a, r⟩, ho⟩ : ∃ o, onNode reg ({ } : Conn S N) (some f) = o := ⟨_, rfl⟩
  rw [ho] at hres
  simp only at hres
  subst hres
  have e0 : Exec (onNode reg) { input := [some f], app := { } } [] _ := .snoc .nil (.read rfl rfl)
  have e1 := Exec.snoc e0 (.handoff (n := some f) rfl rfl)
  have e2 := Exec.snoc e1 (.finishPanic (n := some f) rfl ho)
  have e3 := Exec.snoc e2 (.close rfl)
  exact ⟨_, _, e3, rfl, rfl, by simp⟩

end

/-! ### examples -/

/-- The README's counter: `inc` adds, and refuses 0; `get` replies. -/
def counter : Class Nat Nat where
  fresh := some 10
  init := none
  methods := [(lit "inc", fun s d => match d with | some (n + 1) => ⟨s + (n + 1), [], .ok⟩ | _ => ⟨s, [], .err 400 401⟩), (lit "get", fun s _ => ⟨s, [.reply (lit "ct") s], .ok⟩),
    (lit "crash", fun s _ => ⟨s, [], .panic⟩)]

/-- One whose `Init` fails without data. -/
def picky : Class Nat Nat where
  fresh := some 0
  init := some fun s d => match d with | some n => ⟨s + n, [], .ok⟩ | none => ⟨s, [], .err 1 2⟩
  methods := [(lit "get", fun s _ => ⟨s, [.reply (lit "v") s], .ok⟩)]

def demoReg : Registry Nat Nat := [(lit "counter", counter), (lit "picky", picky)]

/-- Something unreadable after a channel is opened: the channel was open, and what comes later is not looked at. -/
example : (handleAll (onNode demoReg) {} [some ⟨lit "a", lit "counter", lit "new", none⟩, none, some ⟨lit "b", lit "counter", lit "new", none⟩]).2.2 = .err ∧
    (handleAll (onNode demoReg) {} [some ⟨lit "a", lit "counter", lit "new", none⟩, none, some ⟨lit "b", lit "counter", lit "new", none⟩]).2.1.chans.length = 1 := by decide +kernel

/-- C61: a method that is unknown, or a channel, changes nothing. -/
example : (runFrames demoReg { } [⟨lit "a", lit "counter", lit "new", none⟩, ⟨lit "a", lit "dec", [], none⟩]).2 = .err ∧ (runFrames demoReg { } [⟨lit "a", lit "get", [], none⟩]).2 = .err ∧
    (runFrames demoReg { } [⟨lit "a", lit "adder", lit "new", none⟩]).2 = .err := by decide +kernel

/-- C61: what a channel is sent is what it would be alone. -/
example : ((runFrames demoReg { } [⟨lit "a", lit "counter", lit "new", none⟩, ⟨lit "b", lit "counter", lit "new", none⟩, ⟨lit "b", lit "inc", [], some 4⟩, ⟨lit "a", lit "get", [], none⟩]).1.out.filter fun f => f.channel = lit "a") =
    (runFrames demoReg { } [⟨lit "a", lit "counter", lit "new", none⟩, ⟨lit "a", lit "get", [], none⟩]).1.out ∧
    (runFrames demoReg { } [⟨lit "a", lit "counter", lit "new", none⟩, ⟨lit "a", lit "get", [], none⟩]).1.out = [⟨lit "a", lit "ct", [], some 10⟩, ⟨lit "a", lit "get", lit "return", none⟩] := by decide +kernel

/-- C62: it is as if it were open: opening it again is no error, and then it works. -/
example : (runFrames demoReg { } [⟨lit "a", lit "picky", lit "new", none⟩, ⟨lit "a", lit "picky", lit "new", some 5⟩, ⟨lit "a", lit "get", [], none⟩]).1.out = [⟨lit "a", lit "v", [], some 5⟩, ⟨lit "a", lit "get", lit "return", none⟩] := by
  decide +kernel

/-- C92: a method that panics is an error of the method. -/
example : (runFrames demoReg { } [⟨lit "a", lit "counter", lit "new", none⟩, ⟨lit "a", lit "crash", [], none⟩]).2 ≠ .panic := by decide +kernel

/-- Two counters on one connection. -/
example : (runFrames demoReg { } [⟨lit "a", lit "counter", lit "new", none⟩, ⟨lit "b", lit "counter", lit "open", none⟩, ⟨lit "a", lit "inc", [], some 7⟩, ⟨lit "b", lit "inc", [], some 0⟩,
      ⟨lit "a", lit "get", [], none⟩, ⟨lit "b", lit "get", [], none⟩]).1.out =
    [⟨lit "a", lit "inc", lit "return", none⟩, ⟨lit "b", lit "inc", lit "return", some 400⟩, ⟨lit "b", [], lit "error", some 401⟩, ⟨lit "a", lit "ct", [], some 17⟩, ⟨lit "a", lit "get", lit "return", none⟩,
      ⟨lit "b", lit "ct", [], some 10⟩, ⟨lit "b", lit "get", lit "return", none⟩] := by decide +kernel

/-- A failed constructor, and the call that then ends the connection. -/
example : let r := runFrames demoReg { } [⟨lit "a", lit "picky", lit "new", none⟩, ⟨lit "a", lit "get", [], none⟩]; r.1.out = [] ∧ r.2 = .err := by decide +kernel

/-- Closing one of two channels ends the other. -/
example : (runFrames demoReg { } [⟨lit "a", lit "counter", lit "new", none⟩, ⟨lit "b", lit "counter", lit "new", none⟩, ⟨lit "a", [], lit "close", none⟩, ⟨lit "b", lit "get", [], none⟩]).1.out = [] := by
  decide +kernel

end Verif.Ws

import Verif.Ws.RpcProps
/-!
# What a websocket client makes the server keep (C191)

The channels of a connection are kept in a map from their names (rpc.go L15). A frame of type `new` or `open` stores one (handler.go L122-127), before the object is made.
`Channel.Close` (channel.go L19-26) is what removes one, but nothing calls it: `onFrame` answers a frame of type `close` by closing the connection (rpc.go L45-46), an object sees a
`C` whose channel is not exported and whose `Close` closes the connection as well (channel.go L74-77, L97-99), and the map is not exported. So the model of a connection in Rpc.lean,
where methods can reply and close, has no step that removes a channel.
-/
set_option autoImplicit false
namespace Verif.Ws.Kept
open Verif.Strconv Verif.Enc Verif.Ws

variable {S N : Type}

/-- A frame that asks for an object which is registered. rpc.go L36-44. -/
def Opens (reg : Registry S N) (f : Frame N) : Prop := (f.type = lit "new" ∨ f.type = lit "open") ∧ lookupKey f.path reg ≠ none

/-- The names of the channels that are kept. rpc.go L15. -/
def names (c : Conn S N) : List Str := c.chans.map (·.1)

/-! ### lemmas -/

theorem lookup_ne_none {α : Type} (id : Str) (m : List (Str × α)) : lookupKey id m ≠ none ↔ id ∈ m.map (·.1) := by
  induction m with
  | nil => simp [lookupKey]
  | cons e m ih =>
    obtain ⟨k, v⟩ := e
    simp only [lookupKey, List.map_cons, List.mem_cons]
    split
    · rename_i h; simp [h]
    · rename_i h; rw [ih]; constructor
      · exact .inr
      · rintro (h' | h')
        · exact absurd h' (by simpa using h)
        · exact h'

theorem sorted_nodup {α : Type} (m : List (Str × α)) (h : SortedKeys m) : (m.map (·.1)).Nodup := by
  unfold SortedKeys at h
  rw [List.nodup_iff_pairwise_ne, List.pairwise_map]
  refine h.imp fun {a b} hab e => ?_
  rw [e, strLt_irrefl] at hab
  cases hab

theorem chans_send (c : Conn S N) (f : Frame N) : (c.send f).chans = c.chans := by
  unfold Conn.send; split <;> rfl

theorem chans_acts (id : Str) (c : Conn S N) (l : List (Act N)) : (c.acts id l).chans = c.chans := by rw [acts_spec]

theorem openChan_chans (k : Class S N) (c : Conn S N) (f : Frame N) : ∃ ch, (openChan k c f).1.chans = insertKey f.channel ch c.chans ∨
    (openChan k c f).1.chans = insertKey f.channel ch (insertKey f.channel .unbound c.chans) := by
  unfold openChan
  rcases k with ⟨_ | s, _ | i, ms⟩
  · exact ⟨.unbound, .inl rfl⟩
  · exact ⟨.unbound, .inl rfl⟩
  · exact ⟨_, .inr rfl⟩
  · simp only
    cases (i s f.data).res with
    | ok => exact ⟨.bound ms (i s f.data).st, .inr (by simp only [Conn.store, chans_acts])⟩
    | err _ _ => exact ⟨.unbound, .inl (by simp only [Conn.store, chans_acts])⟩
    | panic => exact ⟨.unbound, .inl (by simp only [Conn.store, chans_acts])⟩

theorem onData_chans (c : Conn S N) (id : Str) (f : Frame N) (ch : Chan S N) : (onData c id f ch).1.chans = c.chans ∨ ∃ ch', (onData c id f ch).1.chans = insertKey id ch' c.chans := by
  unfold onData
  cases ch with
  | unbound => exact .inl rfl
  | bound ms st =>
    cases hl : lookupKey f.path ms with
    | none => simp only [hl]; simp
    | some m =>
      simp only [hl]
      refine .inr ⟨.bound ms (m st f.data).st, ?_⟩
      cases (m st f.data).res <;> simp only [chans_send, Conn.store, chans_acts]

theorem mem_insert {α : Type} (k id : Str) (v : α) (m : List (Str × α)) : k ∈ (insertKey id v m).map (·.1) ↔ k = id ∨ k ∈ m.map (·.1) := by
  rw [← lookup_ne_none, ← lookup_ne_none, lookup_insertKey]
  by_cases h : k = id <;> simp [h]

theorem step (reg : Registry S N) (c : Conn S N) (f : Frame N) :
    (∀ id, id ∈ names (onFrame reg c f).1 ↔ id ∈ names c ∨ (Opens reg f ∧ f.channel = id)) ∧ (SortedKeys c.chans → SortedKeys (onFrame reg c f).1.chans) := by
  have hcl : f.type = lit "close" → ¬ (f.type = lit "new" ∨ f.type = lit "open") := by
    intro h; rw [h]; decide
  by_cases hc : f.type = lit "close"
  · rw [onFrame, if_pos hc]
    exact ⟨fun _ => ⟨.inl, fun h => h.elim (fun h => h) (fun h => absurd h.1.1 (hcl hc))⟩, fun h => h⟩
  rw [onFrame, if_neg hc]
  by_cases hn : f.type = lit "new" ∨ f.type = lit "open"
  · rw [if_pos hn]
    cases hk : lookupKey f.path reg with
    | none => exact ⟨fun _ => ⟨.inl, fun h => h.elim (fun h => h) (fun h => absurd hk h.1.2)⟩, fun h => h⟩
    | some k =>
      have ho : Opens reg f := ⟨hn, by rw [hk]; simp⟩
      obtain ⟨ch, h | h⟩ := openChan_chans k c f
      · refine ⟨fun id => ?_, fun hs => by simp only [h]; exact sorted_insertKey _ _ _ hs⟩
        simp only [names, h, mem_insert, ho, true_and]
        grind
      · refine ⟨fun id => ?_, fun hs => by simp only [h]; exact sorted_insertKey _ _ _ (sorted_insertKey _ _ _ hs)⟩
        simp only [names, h, mem_insert, ho, true_and]
        grind
  · rw [if_neg hn]
    have hno : ¬ Opens reg f := fun h => hn h.1
    simp only [hno, false_and, or_false]
    cases hl : lookupKey f.channel c.chans with
    | none => exact ⟨fun _ => Iff.rfl, fun h => h⟩
    | some ch =>
      have hm : f.channel ∈ c.chans.map (·.1) := (lookup_ne_none _ _).1 (by rw [hl]; simp)
      rcases onData_chans c f.channel f ch with h | ⟨ch', h⟩
      · simp only [names, h]
        exact ⟨fun _ => by trivial, fun h => h⟩
      · refine ⟨fun id => ?_, fun hs => by simp only [h]; exact sorted_insertKey _ _ _ hs⟩
        simp only [names, h, mem_insert]
        exact ⟨fun h => h.elim (fun h => h ▸ hm) (fun h => h), .inr⟩

theorem run_cons (reg : Registry S N) (c : Conn S N) (f : Frame N) (l : List (Frame N)) :
    runFrames reg c (f :: l) = if (onFrame reg c f).2 = .ok then runFrames reg (onFrame reg c f).1 l else onFrame reg c f := by
  rw [runFrames]
  rcases onFrame reg c f with ⟨c', _ | _ | _⟩ <;> rfl

/-! ### what is kept -/

/-- C191: what is kept are the channels that were opened, and nothing else that clients send adds to them: after any frames the names of the channels are different from each other,
each is one the client opened for an object that is registered, and if no frame failed each name they opened is there. So their number is the number of names opened, however often
each of them was. What is missing is that channels that are not used any more are forgotten: see `C191_forever_violated`. -/
theorem C191_names_partial (reg : Registry S N) (fs : List (Frame N)) :
    (names (runFrames reg {} fs).1).Nodup ∧ (∀ id ∈ names (runFrames reg {} fs).1, ∃ f ∈ fs, Opens reg f ∧ f.channel = id) ∧
    ((runFrames reg {} fs).2 = .ok → ∀ f ∈ fs, Opens reg f → f.channel ∈ names (runFrames reg {} fs).1) := by
  suffices h : ∀ (fs : List (Frame N)) (c : Conn S N), SortedKeys c.chans → SortedKeys (runFrames reg c fs).1.chans ∧
      (∀ id ∈ names (runFrames reg c fs).1, id ∈ names c ∨ ∃ f ∈ fs, Opens reg f ∧ f.channel = id) ∧ (∀ id ∈ names c, id ∈ names (runFrames reg c fs).1) ∧
      ((runFrames reg c fs).2 = .ok → ∀ f ∈ fs, Opens reg f → f.channel ∈ names (runFrames reg c fs).1) by
    obtain ⟨h1, h2, -, h4⟩ := h fs {} List.Pairwise.nil
    refine ⟨sorted_nodup _ h1, fun id hid => (h2 id hid).resolve_left ?_, h4⟩
    exact fun h => (nomatch h)
  intro fs
  induction fs with
  | nil => exact fun c hc => ⟨hc, fun id h => .inl h, fun id h => h, fun _ f hf => (nomatch hf)⟩
  | cons f fs ih =>
    intro c hc
    obtain ⟨s1, s2⟩ := step reg c f
    rw [run_cons]
    split
    · obtain ⟨i1, i2, i3, i4⟩ := ih (onFrame reg c f).1 (s2 hc)
      refine ⟨i1, fun id hid => ?_, fun id hid => i3 id ((s1 id).2 (.inl hid)), fun hok g hg ho => ?_⟩
      · rcases i2 id hid with h | ⟨g, hg, h⟩
        · rcases (s1 id).1 h with h | h
          · exact .inl h
          · exact .inr ⟨f, by simp, h⟩
        · exact .inr ⟨g, by simp [hg], h⟩
      · rcases List.mem_cons.1 hg with rfl | hg
        · exact i3 _ ((s1 _).2 (.inr ⟨ho, rfl⟩))
        · exact i4 hok g hg ho
    · rename_i hne
      refine ⟨s2 hc, fun id hid => ?_, fun id hid => (s1 id).2 (.inl hid), fun hok => absurd hok hne⟩
      rcases (s1 id).1 hid with h | h
      · exact .inl h
      · exact .inr ⟨f, by simp, h⟩

/-- C191 is violated: a channel that was opened is kept as long as the connection, whatever frames follow, closes of the channel among them, and whatever the objects do. -/
theorem C191_forever_violated (reg : Registry S N) (fs : List (Frame N)) : ∀ (c : Conn S N) (id : Str), id ∈ names c → id ∈ names (runFrames reg c fs).1 := by
  induction fs with
  | nil => exact fun c id h => h
  | cons f fs ih =>
    intro c id h
    have s := ((step reg c f).1 id).2 (.inl h)
    rw [run_cons]
    split
    · exact ih _ _ s
    · exact s

/-- C191 is violated: so is one whose object refused to be made, or panicked being made; it is in the way of nothing and serves nothing. -/
theorem C191_failed_violated (reg : Registry S N) (c : Conn S N) (f : Frame N) (k : Class S N) (i : Method S N) (s : S) (hf : f.type = lit "new" ∨ f.type = lit "open")
    (hk : lookupKey f.path reg = some k) (hs : k.fresh = some s) (hi : k.init = some i) (hr : (i s f.data).res ≠ .ok) :
    lookupKey f.channel (onFrame reg c f).1.chans = some .unbound := by
  have hc : f.type ≠ lit "close" := by rcases hf with h | h <;> rw [h] <;> decide
  rw [onFrame, if_neg hc, if_pos hf, hk]
  simp only [openChan, hs, hi]
  cases h : (i s f.data).res with
  | ok => exact absurd h hr
  | err _ _ => simp only [chans_acts, lookup_store, if_true]
  | panic => simp only [chans_acts, lookup_store, if_true]

theorem nodup_length {l m : List Str} (hl : l.Nodup) (h : ∀ a ∈ l, a ∈ m) : l.length ≤ m.length := by
  induction l generalizing m with
  | nil => simp
  | cons a l ih =>
    have ha : a ∈ m := h a (by simp)
    have hl' := List.nodup_cons.1 hl
    have := ih (m := m.erase a) hl'.2 fun b hb => (List.mem_erase_of_ne (fun e : b = a => hl'.1 (e ▸ hb))).2 (h b (by simp [hb]))
    rw [List.length_erase_of_mem ha] at this
    have := List.length_pos_of_mem ha
    simp only [List.length_cons]; omega

/-- C191 is violated: clients choose how many channels a connection keeps, each with a copy of the template. For any number of names there are as many channels after opening them, and
that is still so whatever is sent afterwards, such as a close for each. -/
theorem C191_many_violated (reg : Registry S N) (path : Str) (k : Class S N) (hk : lookupKey path reg = some k) (hs : k.fresh ≠ none)
    (hi : ∀ i, k.init = some i → ∀ s, (i s none).res ≠ .panic) (ids : List Str) (hn : ids.Nodup) (fs : List (Frame N)) :
    (runFrames reg {} (ids.map fun id => ⟨id, path, lit "new", none⟩)).2 = .ok ∧
    (runFrames reg {} (ids.map fun id => ⟨id, path, lit "new", none⟩)).1.chans.length = ids.length ∧
    ids.length ≤ (runFrames reg (runFrames reg {} (ids.map fun id => ⟨id, path, lit "new", none⟩)).1 fs).1.chans.length := by
  have hlen : ∀ c : Conn S N, (names c).length = c.chans.length := fun c => by simp [names]
  have hok : ∀ (ids : List Str) (c : Conn S N), (runFrames reg c (ids.map fun id => (⟨id, path, lit "new", none⟩ : Frame N))).2 = .ok := by
    intro ids
    induction ids with
    | nil => exact fun c => rfl
    | cons id ids ih =>
      intro c
      rw [List.map_cons, run_cons, if_pos]
      · exact ih _
      · have h1 : lit "new" ≠ lit "close" := by decide
        simp only [onFrame, if_neg h1, true_or, if_true, hk, openChan]
        cases hf : k.fresh with
        | none => exact absurd hf hs
        | some s =>
          cases hin : k.init with
          | none => rfl
          | some i =>
            simp only
            have := hi i hin s
            cases hr : (i s none).res with
            | ok => rfl
            | err _ _ => rfl
            | panic => exact absurd hr this
  obtain ⟨p1, p2, p3⟩ := C191_names_partial reg (ids.map fun id => (⟨id, path, lit "new", none⟩ : Frame N))
  have hsub : ∀ id ∈ ids, id ∈ names (runFrames reg {} (ids.map fun id => (⟨id, path, lit "new", none⟩ : Frame N))).1 := by
    intro id hid
    exact p3 (hok ids {}) ⟨id, path, lit "new", none⟩ (List.mem_map.2 ⟨id, hid, rfl⟩) ⟨.inl rfl, by show lookupKey path reg ≠ none; rw [hk]; simp⟩
  refine ⟨hok ids {}, ?_, ?_⟩
  · rw [← hlen]
    refine Nat.le_antisymm (nodup_length p1 fun id hid => ?_) (nodup_length hn hsub)
    obtain ⟨f, hf, -, rfl⟩ := p2 id hid
    obtain ⟨i, hi, rfl⟩ := List.mem_map.1 hf
    exact hi
  · rw [← hlen]
    exact nodup_length hn fun id hid => C191_forever_violated reg fs _ id (hsub id hid)

/-! ### examples -/

/-- Two counters, one opened twice: two channels; data adds none. -/
example : names (runFrames demoReg {} [⟨lit "b", lit "counter", lit "new", none⟩, ⟨lit "a", lit "counter", lit "open", none⟩, ⟨lit "b", lit "counter", lit "new", none⟩, ⟨lit "a", lit "inc", [], some 3⟩]).1 =
    [lit "a", lit "b"] := by decide +kernel

/-- Asking for what is not registered adds none, and ends the connection. -/
example : names (runFrames demoReg {} [⟨lit "b", lit "counter", lit "new", none⟩, ⟨lit "a", lit "adder", lit "new", none⟩, ⟨lit "c", lit "counter", lit "new", none⟩]).1 = [lit "b"] := by decide +kernel

/-- C191: a close forgets nothing, and an object that refuses is kept as a channel without methods. -/
example : names (runFrames demoReg {} [⟨lit "a", lit "counter", lit "new", none⟩, ⟨lit "p", lit "picky", lit "new", none⟩, ⟨lit "a", [], lit "close", none⟩]).1 = [lit "a", lit "p"] ∧
    (lookupKey (lit "p") (runFrames demoReg {} [⟨lit "p", lit "picky", lit "new", none⟩]).1.chans).isSome := by decide +kernel

end Verif.Ws.Kept

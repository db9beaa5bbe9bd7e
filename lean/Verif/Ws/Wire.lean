import Verif.Ws.Rpc
import Verif.Enc.TypedProps
/-!
# Frames on the wire (C63)

`Conn.Send` marshals the frame and writes it as JSON (conn.go L72-74, ws.go); the receiver decodes it and unmarshals it into a `Frame` (rpc.go L25-31).
-/
set_option autoImplicit false
namespace Verif.Ws
open Verif.Strconv Verif.Enc

/-- The type `Frame` (channel.go L62-72). -/
def frameTy : Fields :=
  .cons { name := lit "Channel", tag := lit "channel,omitempty" } .string
  (.cons { name := lit "Path", tag := lit "path,omitempty" } .string
  (.cons { name := lit "Type", tag := lit "type" } .string
  (.cons { name := lit "Data", tag := lit "data,omitempty" } .node .nil)))

section
variable {X : Ext}

/-- A frame as a value of its Go type. channel.go L62-72. -/
def Frame.val (f : Frame (Node X)) : Val X (.struct frameTy) := ((f.channel, f.path, f.type, f.data, ()) : FVals X frameTy)

/-- Sending: the JSON text of the frame. conn.go L72-74, ws.go L39-62. -/
def sendText (O : Order) (f : Frame (Node X)) : Res Str := marshalJSON O (.struct frameTy) f.val

/-- Receiving: the text into a new frame, with the default handler. ws.go L64-70, rpc.go L25-31. -/
def recvText (O : Order) (s : Str) : Out X (Val X (.struct frameTy)) := unmarshalJSON ⟨none⟩ O (.struct frameTy) s (zero X (.struct frameTy))

/-- What should arrive: the same data, in its decoded form. enc/json.go L74-86. -/
def decoded : Option (Node X) → Option (Node X) := Option.map Node.norm

/-- What does arrive: null and the empty string are dropped. channel.go L62-72. -/
def arrives : Option (Node X) → Option (Node X)
  | none => none
  | some n => match n.norm with
    | .nil => none
    | .str [] => none
    | m => some m

/-! ### lemmas -/

theorem listDepth_le (l : List (Node X)) (k : Nat) : Node.listDepth l ≤ k ↔ ∀ n ∈ l, n.depth ≤ k := by
  induction l with
  | nil => simp [Node.listDepth]
  | cons n l ih => simp only [Node.listDepth, List.mem_cons, forall_eq_or_imp, ← ih]; omega

theorem mapDepth_le (l : List (Str × Node X)) (k : Nat) : Node.mapDepth l ≤ k ↔ ∀ n ∈ l, n.2.depth ≤ k := by
  induction l with
  | nil => simp [Node.mapDepth]
  | cons n l ih => simp only [Node.mapDepth, List.mem_cons, forall_eq_or_imp, ← ih]; omega

theorem pairsDepth_le (l : List ((Str × Str) × Node X)) (k : Nat) : Node.pairsDepth l ≤ k ↔ ∀ n ∈ l, n.2.depth ≤ k := by
  induction l with
  | nil => simp [Node.pairsDepth]
  | cons n l ih => simp only [Node.pairsDepth, List.mem_cons, forall_eq_or_imp, ← ih]; omega

theorem listWF_mem (l : List (Node X)) (h : Node.listWF l) : ∀ n ∈ l, n.WF := by
  induction l with
  | nil => simp
  | cons n l ih => simp only [List.mem_cons, forall_eq_or_imp]; exact ⟨h.1, ih h.2⟩

theorem mapWF_mem (l : List (Str × Node X)) (h : Node.mapWF l) : ∀ n ∈ l, n.2.WF := by
  induction l with
  | nil => simp
  | cons n l ih => simp only [List.mem_cons, forall_eq_or_imp]; exact ⟨h.1, ih h.2⟩

theorem pairsWF_mem (l : List ((Str × Str) × Node X)) (h : Node.pairsWF l) : ∀ n ∈ l, n.2.WF := by
  induction l with
  | nil => simp
  | cons n l ih => simp only [List.mem_cons, forall_eq_or_imp]; exact ⟨h.1, ih h.2⟩

theorem listEncodable_mem (l : List (Node X)) (h : Node.listEncodable l = true) : ∀ n ∈ l, n.encodable = true := by
  induction l with
  | nil => simp
  | cons n l ih => simp only [Node.listEncodable, Bool.and_eq_true] at h; simp only [List.mem_cons, forall_eq_or_imp]; exact ⟨h.1, ih h.2⟩

theorem mapEncodable_mem (l : List (Str × Node X)) (h : Node.mapEncodable l = true) : ∀ n ∈ l, n.2.encodable = true := by
  induction l with
  | nil => simp
  | cons n l ih => simp only [Node.mapEncodable, Bool.and_eq_true] at h; simp only [List.mem_cons, forall_eq_or_imp]; exact ⟨h.1, ih h.2⟩

theorem pairsEncodable_mem (l : List ((Str × Str) × Node X)) (h : Node.pairsEncodable l = true) : ∀ n ∈ l, n.2.encodable = true := by
  induction l with
  | nil => simp
  | cons n l ih => simp only [Node.pairsEncodable, Bool.and_eq_true] at h; simp only [List.mem_cons, forall_eq_or_imp]; exact ⟨h.1, ih h.2⟩

/-- What JSON makes of a node can be encoded again, and is not nested deeper. -/
theorem norm_good (hX : Laws X) : ∀ (n : Node X), n.WF → n.encodable = true → Good n.norm ∧ n.norm.depth ≤ n.depth
  | .nil, _, _ => ⟨⟨trivial, fun _ => rfl⟩, Nat.le_refl _⟩
  | .bool _, _, _ => ⟨⟨trivial, fun _ => rfl⟩, Nat.le_refl _⟩
  | .str _, _, _ => ⟨⟨trivial, fun _ => rfl⟩, Nat.le_refl _⟩
  | .time _, _, _ => ⟨⟨trivial, fun _ => rfl⟩, Nat.le_refl _⟩
  | .dur _, _, _ => ⟨⟨trivial, fun _ => rfl⟩, Nat.le_refl _⟩
  | .int i, _, _ => ⟨⟨trivial, fun _ => isNumber_fmtInt i⟩, Nat.le_refl _⟩
  | .digits s, _, h => ⟨⟨trivial, fun _ => h⟩, Nat.le_refl _⟩
  | .float f, _, h => by
    refine ⟨⟨trivial, fun _ => ?_⟩, Nat.le_refl _⟩
    simp only [Node.encodable, Option.isSome_iff_exists] at h
    obtain ⟨t, ht⟩ := h
    simp only [Node.norm, ht, Option.getD_some, Node.encodable]
    exact hX.fJson_number f t ht
  | .list l, hw, he => by
    have key : ∀ n ∈ l, Good n.norm ∧ n.norm.depth ≤ n.depth := fun n hn => norm_good hX n (listWF_mem l hw n hn) (listEncodable_mem l he n hn)
    simp only [Node.norm, listNorm_eq]
    refine ⟨good_list _ (fun m hm => ?_), ?_⟩
    · obtain ⟨n, hn, rfl⟩ := List.mem_map.mp hm
      exact (key n hn).1
    · simp only [Node.depth]
      refine Nat.add_le_add_right ((listDepth_le _ _).mpr fun m hm => ?_) 1
      obtain ⟨n, hn, rfl⟩ := List.mem_map.mp hm
      exact Nat.le_trans (key n hn).2 ((listDepth_le l _).mp (Nat.le_refl _) n hn)
  | .map l, hw, he => by
    have he' : Node.mapEncodable l = true := by simp only [Node.encodable, Bool.and_eq_true] at he; exact he.1
    have key : ∀ n ∈ l, Good n.2.norm ∧ n.2.norm.depth ≤ n.2.depth := fun n hn => norm_good hX n.2 (mapWF_mem l hw.2 n hn) (mapEncodable_mem l he' n hn)
    simp only [Node.norm, mapNorm_eq]
    refine ⟨good_map _ (sorted_map_val (fun e => e.2.norm) l hw.1) (fun m hm => ?_), ?_⟩
    · obtain ⟨n, hn, rfl⟩ := List.mem_map.mp hm
      exact (key n hn).1
    · simp only [Node.depth]
      refine Nat.add_le_add_right ((mapDepth_le _ _).mpr fun m hm => ?_) 1
      obtain ⟨n, hn, rfl⟩ := List.mem_map.mp hm
      exact Nat.le_trans (key n hn).2 ((mapDepth_le l _).mp (Nat.le_refl _) n hn)
  | .pairs l, hw, he => by
    have he' : Node.pairsEncodable l = true := by simp only [Node.encodable, Bool.and_eq_true] at he; exact he.1
    have key : ∀ n ∈ l, Good n.2.norm ∧ n.2.norm.depth ≤ n.2.depth := fun n hn => norm_good hX n.2 (pairsWF_mem l hw n hn) (pairsEncodable_mem l he' n hn)
    simp only [Node.norm, pairsNorm_eq]
    refine ⟨good_map _ (sorted_ofEntries _) (fun m hm => ?_), ?_⟩
    · obtain ⟨n, hn, rfl⟩ := List.mem_map.mp (mem_ofEntries _ _ hm)
      exact (key n hn).1
    · simp only [Node.depth]
      refine Nat.add_le_add_right ((mapDepth_le _ _).mpr fun m hm => ?_) 1
      obtain ⟨n, hn, rfl⟩ := List.mem_map.mp (mem_ofEntries _ _ hm)
      exact Nat.le_trans (key n hn).2 ((pairsDepth_le l _).mp (Nat.le_refl _) n hn)
termination_by n => sizeOf n
decreasing_by
  · have := List.sizeOf_lt_of_mem hn; simp; omega
  · have := List.sizeOf_lt_of_mem hn; obtain ⟨a, b⟩ := n; simp at this ⊢; omega
  · have := List.sizeOf_lt_of_mem hn; obtain ⟨a, b⟩ := n; simp at this ⊢; omega

/-- Marshalling a node gives one that JSON turns into the same. -/
theorem marshalNode_norm (hX : Laws X) (n : Node X) (h1 : n.WF) (h2 : n.encodable = true) (h3 : n.depth ≤ maxDepth) :
    ∃ m, marshalNode n = .ok m ∧ m.norm = n.norm ∧ Good m ∧ m.depth ≤ n.depth ∧ (emptyNode m = true ↔ n.norm = .nil ∨ n.norm = .str []) := by
  have hd : decode n.text = some (some n.norm) := C39_round_trip hX n h1 n.text (by rw [encode, if_pos h2]) h3
  obtain ⟨hg, hle⟩ := norm_good hX n h1 h2
  have hself : Good n := ⟨h1, fun _ => h2⟩
  have hnum : ∀ s : Str, isNumber s = true → s ≠ [] := by rintro s hs rfl; revert hs; decide
  cases n with
  | str s => exact ⟨_, rfl, rfl, hself, Nat.le_refl _, by simp [emptyNode, Node.norm]⟩
  | bool _ => exact ⟨_, rfl, rfl, hself, Nat.le_refl _, by simp [emptyNode, Node.norm]⟩
  | list _ => exact ⟨_, rfl, rfl, hself, Nat.le_refl _, by simp [emptyNode, Node.norm]⟩
  | nil => exact ⟨.nil, by simp only [marshalNode, h2, hd, if_true]; rfl, rfl, hself, Nat.le_refl _, by simp [emptyNode, Node.norm]⟩
  | digits s =>
    refine ⟨.digits s, by simp only [marshalNode, h2, hd, if_true]; rfl, rfl, hself, Nat.le_refl _, ?_⟩
    simp [emptyNode, Node.norm, hnum s h2]
  | int i =>
    refine ⟨.digits (fmtInt i), by simp only [marshalNode, h2, hd, if_true]; rfl, rfl, hg, hle, ?_⟩
    simp [emptyNode, Node.norm, hnum _ (isNumber_fmtInt i)]
  | float f =>
    refine ⟨(Node.float f).norm, by simp only [marshalNode, h2, hd, if_true], C39_idempotent _, hg, hle, ?_⟩
    have := hg.2 (Nat.le_trans hle h3)
    simp only [Node.norm, Node.encodable] at this
    simp [emptyNode, Node.norm, hnum _ this]
  | time t => exact ⟨.str (X.tFmt t), by simp only [marshalNode, h2, hd, if_true]; rfl, rfl, hg, hle, by simp [emptyNode, Node.norm]⟩
  | dur d =>
    refine ⟨(Node.dur d).norm, by simp only [marshalNode, h2, hd, if_true], rfl, hg, hle, ?_⟩
    simp only [Node.norm]
    by_cases h0 : d = 0 <;> simp [emptyNode, h0]
  | map m =>
    have : Node.mapEncodable m = true := by simp only [Node.encodable, Bool.and_eq_true] at h2; exact h2.1
    exact ⟨_, by simp only [marshalNode, this, hd, if_true], C39_idempotent _, hg, hle, by simp [emptyNode, Node.norm]⟩
  | pairs m =>
    have : Node.pairsEncodable m = true := by simp only [Node.encodable, Bool.and_eq_true] at h2; exact h2.1
    exact ⟨_, by simp only [marshalNode, this, hd, if_true], C39_idempotent _, hg, hle, by simp [emptyNode, Node.norm]⟩

/-- A written field. enc/handler.go L277-316. -/
def entry (keep : Bool) (name json : String) (n : Node X) : List ((Str × Str) × Node X) := if keep then [((lit name, lit json), n)] else []

/-- The fields of a frame that are written. channel.go L62-72. -/
def frameEntries (f : Frame (Node X)) (keep : Bool) (m : Node X) : List ((Str × Str) × Node X) :=
  entry (!decide (f.channel = [])) "Channel" "channel" (.str f.channel) ++ (entry (!decide (f.path = [])) "Path" "path" (.str f.path) ++
    (entry true "Type" "type" (.str f.type) ++ entry keep "Data" "data" m))

theorem bind_ok_eq {α β : Type} (a : α) (g : α → Res β) : (Res.ok a).bind g = g a := rfl

theorem marshal_frame (O : Order) (f : Frame (Node X)) (m : Node X) (h : marshal O .node (f.data : Val X .node) = .ok m) :
    marshal O (.struct frameTy) f.val = .ok (.pairs (frameEntries f (!emptyNode m) m)) := by
  have t1 : parseTag { name := lit "Channel", tag := lit "channel,omitempty" } = some ⟨lit "Channel", lit "channel", true, false⟩ := by decide +kernel
  have t2 : parseTag { name := lit "Path", tag := lit "path,omitempty" } = some ⟨lit "Path", lit "path", true, false⟩ := by decide +kernel
  have t3 : parseTag { name := lit "Type", tag := lit "type" } = some ⟨lit "Type", lit "type", false, false⟩ := by decide +kernel
  have t4 : parseTag { name := lit "Data", tag := lit "data,omitempty" } = some ⟨lit "Data", lit "data", true, false⟩ := by decide +kernel
  show (marshalFields O frameTy (f.channel, f.path, f.type, f.data, ())).bind (fun l => .ok (Node.pairs l)) = _
  have hs : ∀ s : Str, marshal (X := X) O .string (s : Str) = .ok (.str s) := fun _ => rfl
  unfold frameTy
  simp only [marshalFields, t1, t2, t3, t4, h, hs, bind_ok_eq, Bool.true_and, Bool.false_and, if_true, Bool.false_eq_true, if_false]
  unfold frameEntries entry
  cases emptyNode m <;> by_cases h1 : f.channel = [] <;> by_cases h2 : f.path = [] <;> simp [emptyNode, h1, h2, bind_ok_eq]

theorem uFields_frame (O : Order) (mp : List (Str × Node X)) (f : Frame (Node X)) (d : Option (Node X))
    (h1 : lookupKey (lit "channel") mp = if f.channel = [] then none else some (.str f.channel)) (h2 : lookupKey (lit "path") mp = if f.path = [] then none else some (.str f.path))
    (h3 : lookupKey (lit "type") mp = some (.str f.type)) (h4 : lookupKey (lit "data") mp = d) :
    uFields ⟨none⟩ O frameTy mp (zeroFields X frameTy) = .done ((f.channel, f.path, f.type, d, ()) : FVals X frameTy) := by
  have t1 : parseTag { name := lit "Channel", tag := lit "channel,omitempty" } = some ⟨lit "Channel", lit "channel", true, false⟩ := by decide +kernel
  have t2 : parseTag { name := lit "Path", tag := lit "path,omitempty" } = some ⟨lit "Path", lit "path", true, false⟩ := by decide +kernel
  have t3 : parseTag { name := lit "Type", tag := lit "type" } = some ⟨lit "Type", lit "type", false, false⟩ := by decide +kernel
  have t4 : parseTag { name := lit "Data", tag := lit "data,omitempty" } = some ⟨lit "Data", lit "data", true, false⟩ := by decide +kernel
  unfold frameTy
  simp only [zeroFields, uFields, t1, t2, t3, t4, h1, h2, h3, h4, if_true]
  cases d <;> by_cases e1 : f.channel = [] <;> by_cases e2 : f.path = [] <;> simp only [e1, e2, if_true, if_false] <;> rfl

/-- C63 (what happens to every frame): a frame whose data can be encoded arrives with its channel, path and type, and with its data in decoded form, unless that is null or the empty string. -/
theorem C63_arrives_partial (hX : Laws X) (O O' : Order) (f : Frame (Node X)) (hd : ∀ n, f.data = some n → n.WF ∧ n.encodable = true ∧ n.depth < maxDepth) :
    ∃ s, sendText O f = .ok s ∧ recvText O' s = .done (Frame.val { f with data := arrives f.data }) := by
  obtain ⟨m, hm, hnorm, hgood, hdepth, hempty⟩ : ∃ m, marshal O .node (f.data : Val X .node) = .ok m ∧ m.norm = (match f.data with | none => Node.nil | some n => n.norm) ∧ Good m ∧
      m.depth < maxDepth ∧ (emptyNode m = true ↔ arrives f.data = none) := by
    cases hf : f.data with
    | none => exact ⟨.nil, rfl, rfl, ⟨trivial, fun _ => rfl⟩, (by show 0 < maxDepth; decide), by simp [emptyNode, arrives]⟩
    | some n =>
      obtain ⟨a1, a2, a3⟩ := hd n hf
      obtain ⟨m, b1, b2, b3, b4, b5⟩ := marshalNode_norm hX n a1 a2 (Nat.le_of_lt a3)
      refine ⟨m, b1, b2, b3, by omega, b5.trans ?_⟩
      simp only [arrives]
      split
      · rename_i e; simp [e]
      · rename_i e; simp [e]
      · rename_i e1 e2; exact ⟨fun h => h.elim (fun h => (e1 h).elim) (fun h => (e2 h).elim), fun h => by cases h⟩
  have hmf := marshal_frame O f m hm
  generalize hes : frameEntries f (!emptyNode m) m = es at hmf
  have hmem : ∀ e ∈ es, Good e.2 ∧ e.2.depth < maxDepth := by
    intro e he
    have hs : ∀ s : Str, Good (.str s : Node X) ∧ (.str s : Node X).depth < maxDepth := fun s => ⟨⟨trivial, fun _ => rfl⟩, by show 0 < maxDepth; decide⟩
    rw [← hes] at he
    unfold frameEntries entry at he
    simp only [List.mem_append] at he
    rcases he with he | he | he | he <;> split at he <;> simp only [List.mem_singleton, List.not_mem_nil] at he <;> subst he
    · exact hs _
    · exact hs _
    · exact hs _
    · exact ⟨hgood, hdepth⟩
  obtain ⟨hwf, henc⟩ := good_pairs es (fun e he => (hmem e he).1)
  have hdp : (Node.pairs es).depth ≤ maxDepth := by
    have : Node.pairsDepth es ≤ maxDepth - 1 := (pairsDepth_le es _).mpr fun e he => by have := (hmem e he).2; omega
    have hpos : 0 < maxDepth := by decide
    simp only [Node.depth]; omega
  have he : encode (Node.pairs es) = .ok (Node.pairs es).text := by rw [encode, if_pos (henc hdp)]
  refine ⟨(Node.pairs es).text, by simp only [sendText, marshalJSON, hmf, bind_ok_eq, he], ?_⟩
  unfold recvText unmarshalJSON
  rw [C39_round_trip hX _ hwf _ he hdp]
  show unmarshal _ O' (.struct frameTy) (.map (ofEntries (Node.pairsNorm es))) (zeroFields X frameTy) = _
  rw [un_struct_map]
  have hlook : ∀ k, lookupKey k (ofEntries (Node.pairsNorm es)) = lookupKey k (Node.pairsNorm es).reverse := fun k => lookup_ofEntries k _
  have n1 : lit "channel" ≠ lit "path" := by decide
  have n2 : lit "channel" ≠ lit "type" := by decide
  have n3 : lit "channel" ≠ lit "data" := by decide
  have n4 : lit "path" ≠ lit "type" := by decide
  have n5 : lit "path" ≠ lit "data" := by decide
  have n6 : lit "type" ≠ lit "data" := by decide
  have hdata : emptyNode m = false → arrives f.data = some m.norm := by
    intro h
    cases hf : f.data with
    | none => rw [hf] at hempty; rw [hempty.mpr rfl] at h; cases h
    | some n =>
      rw [hf] at hempty hnorm
      simp only at hnorm
      simp only [arrives, hnorm] at hempty ⊢
      split
      · rename_i e; rw [e] at hempty; rw [hempty.mpr rfl] at h; cases h
      · rename_i e; rw [e] at hempty; rw [hempty.mpr rfl] at h; cases h
      · rfl
  have hu := uFields_frame O' (ofEntries (Node.pairsNorm es)) f (arrives f.data) ?_ ?_ ?_ ?_
  · rw [hu]; rfl
  all_goals
    rw [hlook, ← hes]
    unfold frameEntries entry
    cases hem : emptyNode m <;> by_cases h1 : f.channel = [] <;> by_cases h2 : f.path = [] <;>
      simp [h1, h2, Node.pairsNorm, Node.norm, lookupKey, n1, n2, n3, n4, n5, n6, n1.symm, n2.symm, n3.symm, n4.symm, n5.symm, n6.symm] <;>
      first | exact (hdata hem).symm | exact (hempty.mp hem).symm

/-- C63: so a frame without data, or with data that is neither null nor the empty string, survives. -/
theorem C63_round_trip_partial (hX : Laws X) (O O' : Order) (f : Frame (Node X)) (hd : ∀ n, f.data = some n → n.WF ∧ n.encodable = true ∧ n.depth < maxDepth ∧ n.norm ≠ .nil ∧ n.norm ≠ .str []) :
    ∃ s, sendText O f = .ok s ∧ recvText O' s = .done (Frame.val { f with data := decoded f.data }) := by
  obtain ⟨s, h1, h2⟩ := C63_arrives_partial hX O O' f (fun n hn => ⟨(hd n hn).1, (hd n hn).2.1, (hd n hn).2.2.1⟩)
  refine ⟨s, h1, ?_⟩
  rw [h2]
  cases hf : f.data with
  | none => rfl
  | some n =>
    obtain ⟨-, -, -, h3, h4⟩ := hd n hf
    have : arrives (some n) = decoded (some n) := by
      simp only [arrives, decoded, Option.map_some]
    rw [this]

/-- C63: a frame whose data is the empty string arrives without data. -/
theorem C63_violated (hX : Laws X) (O O' : Order) (f : Frame (Node X)) (hf : f.data = some (.str [])) :
    ∃ s, sendText O f = .ok s ∧ recvText (X := X) O' s = .done (Frame.val { f with data := none }) ∧ Frame.val (X := X) { f with data := none } ≠ Frame.val { f with data := decoded f.data } := by
  obtain ⟨s, h1, h2⟩ := C63_arrives_partial hX O O' f (fun n hn => by rw [hf] at hn; injection hn with hn; subst hn; exact ⟨trivial, rfl, by show 0 < maxDepth; decide⟩)
  refine ⟨s, h1, ?_, ?_⟩
  · rw [h2, hf]; rfl
  · rw [hf]
    intro h
    have h : ((f.channel, f.path, f.type, none, ()) : Str × Str × Str × Option (Node X) × Unit) = (f.channel, f.path, f.type, some (.str []), ()) := h
    simp at h

end

/-- The README's increment. -/
example : sendText (X := XT) sortedOrder ⟨lit "1234", lit "inc", [], some (.int 7)⟩ = .ok (lit "{\"channel\":\"1234\",\"path\":\"inc\",\"type\":\"\",\"data\":7}") := by decide +kernel

end Verif.Ws

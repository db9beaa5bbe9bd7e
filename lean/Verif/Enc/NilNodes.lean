import Verif.Enc.Native
/-!
# Nil nodes and nil lists inside of nodes (C178)

`enc.Node` is an interface: an element of an `enc.List` and a member of an `enc.Map` or `enc.Pairs` may be nil, and an `enc.List` may be a nil slice (a nil `enc.Map` and nil `enc.Pairs` behave as the empty ones
everywhere). `Node` has neither.
-/
set_option autoImplicit false
namespace Verif.Enc.Nils
open Verif.Strconv Verif.Enc
variable {X : Ext}

/-- A node that may have nil inside. enc/list.go L11, enc/map.go L14, enc/pairs.go L14. -/
inductive GNode (X : Ext) where
  /-- a nil interface -/
  | absent
  /-- `enc.List(nil)` -/
  | nilList
  /-- a node without nil -/
  | leaf (n : Node X)
  | list (l : List (GNode X))
  | map (m : List (Str × GNode X))
  | pairs (l : List ((Str × Str) × GNode X))

mutual
/-- What `json.Marshal` writes, if it succeeds: nil interfaces and nil slices are `null`. enc/json.go L49-72, enc/map.go L26-31, enc/pairs.go L50-63. -/
def GNode.text : GNode X → Str
  | .absent => lit "null"
  | .nilList => lit "null"
  | .leaf n => n.text
  | .list l => '[' :: (textL l ++ [']'])
  | .map m => '{' :: (textM m ++ ['}'])
  | .pairs l => '{' :: (textP l ++ ['}'])
/-- enc/list.go L11. -/
def textL : List (GNode X) → Str
  | [] => []
  | [n] => n.text
  | n :: l => n.text ++ ',' :: textL l
/-- enc/map.go L26-31. -/
def textM : List (Str × GNode X) → Str
  | [] => []
  | [(k, n)] => jsonStr k ++ ':' :: n.text
  | (k, n) :: l => jsonStr k ++ ':' :: (n.text ++ ',' :: textM l)
/-- enc/pairs.go L50-63. -/
def textP : List ((Str × Str) × GNode X) → Str
  | [] => []
  | [((_, k), n)] => jsonStr k ++ ':' :: n.text
  | ((_, k), n) :: l => jsonStr k ++ ':' :: (n.text ++ ',' :: textP l)
end

mutual
/-- `native` (enc/list.go L15-22, enc/map.go L18-24, enc/pairs.go L26-32): of a nil interface it panics. -/
def GNode.native : GNode X → Go (Any X)
  | .absent => .error .nilDeref
  | .nilList => .ok (.list [])
  | .leaf n => .ok n.native
  | .list l => (nativeL l).map .list
  | .map m => (nativeM m).map fun m => .map (ofEntries m)
  | .pairs l => (nativeP l).map fun m => .map (ofEntries m)
/-- enc/list.go L15-22. -/
def nativeL : List (GNode X) → Go (List (Any X))
  | [] => .ok []
  | n :: l => n.native.bind fun a => (nativeL l).map (a :: ·)
/-- enc/map.go L18-24. -/
def nativeM : List (Str × GNode X) → Go (List (Str × Any X))
  | [] => .ok []
  | (k, n) :: l => n.native.bind fun a => (nativeM l).map ((k, a) :: ·)
/-- enc/pairs.go L26-32. -/
def nativeP : List ((Str × Str) × GNode X) → Go (List (Str × Any X))
  | [] => .ok []
  | ((k, _), n) :: l => n.native.bind fun a => (nativeP l).map ((k, a) :: ·)
end

/-- `Handler.Marshal` of a node (enc/handler.go L176-197): a list is returned as it is, maps and pairs (if they can be encoded) go through their text. -/
def marshalG : GNode X → Res (GNode X)
  | .absent => .ok (.leaf .nil)
  | .nilList => .ok .nilList
  | .leaf n => match marshalNode n with | .ok m => .ok (.leaf m) | .err => .err | .panic => .panic
  | .list l => .ok (.list l)
  | .map m => match decode (X := X) (GNode.text (.map m)) with | some (some n) => .ok (.leaf n) | _ => .err
  | .pairs l => match decode (X := X) (GNode.text (.pairs l)) with | some (some n) => .ok (.leaf n) | _ => .err

/-- `Handler.unmarshal` (enc/handler.go L51-160) of a nil interface: a pointer is set to a new variable (L62-74), `time.Time`, `enc.Time` and `enc.Duration` see `null` (L86-101), a `Node` is set to nil (L102-108), and
anything else ends with the call of a method of nil (L158). -/
def absentInto : (t : Ty) → Val X t → Out X (Val X t)
  | .node, _ => .done (none : Option (Node X))
  | .time, old => uTime .nil old
  | .encTime, old => uEncTime .nil old
  | .encDur, old => uEncDur .nil old
  | .ptr t, _ => let r := absentInto t (zero X t); (⟨some r.val, r.st, r.calls⟩ : Out X (Option (Val X t)))
  | .bool, old => .mk' old .panic
  | .int _, old => .mk' old .panic
  | .uint _, old => .mk' old .panic
  | .float64, old => .mk' old .panic
  | .float32, old => .mk' old .panic
  | .string, old => .mk' old .panic
  | .any, old => .mk' old .panic
  | .func, old => .mk' old .panic
  | .chan, old => .mk' old .panic
  | .iface, old => .mk' old .panic
  | .slice _, old => .mk' old .panic
  | .array _ _, old => .mk' old .panic
  | .map _ _, old => .mk' old .panic
  | .struct _, old => .mk' old .panic

/-- `Handler.unmarshal` of a node or nil. -/
def elemInto (H : Handler X) (O : Order) (t : Ty) (n : Option (Node X)) (old : Val X t) : Out X (Val X t) :=
  match n with
  | none => absentInto t old
  | some n => Enc.unmarshal H O t n old

/-- The elements of a list, some of which may be nil, into new variables. enc/list.go L47-58. -/
def elemsInto (H : Handler X) (O : Order) (t : Ty) : List (Option (Node X)) → Out X (List (Val X t))
  | [] => .done []
  | n :: l =>
    let r := elemInto H O t n (zero X t)
    match r.st with
    | .ok => let rs := elemsInto H O t l; ⟨r.val :: rs.val, rs.st, r.calls ++ rs.calls⟩
    | s => ⟨[], s, r.calls⟩

/-- `List.unmarshalInto` (enc/list.go L47-58) into a slice. -/
def listInto (H : Handler X) (O : Order) (t : Ty) (l : List (Option (Node X))) (old : Val X (.slice t)) : Out X (Val X (.slice t)) :=
  (elemsInto H O t l).assign some old

/-- `Map.unmarshalInto` (enc/map.go L89-106) into the fields of a struct, where members may be nil. -/
def fieldsInto (H : Handler X) (O : Order) : (fs : Fields) → List (Str × Option (Node X)) → FVals X fs → Out X (FVals X fs)
  | .nil, _, _ => .done ()
  | .cons f t fs, m, (v, vs) =>
    if f.exported then
      match parseTag f with
      | none => .mk' (v, vs) .panic
      | some tag => match lookupKey tag.json m with
        | none => let rs := fieldsInto H O fs m vs; ⟨(v, rs.val), rs.st, rs.calls⟩
        | some n =>
          let r := elemInto H O t n v
          match r.st with
          | .ok => let rs := fieldsInto H O fs m vs; ⟨(r.val, rs.val), rs.st, r.calls ++ rs.calls⟩
          | s => ⟨(r.val, vs), s, r.calls⟩
    else let rs := fieldsInto H O fs m vs; ⟨(v, rs.val), rs.st, rs.calls⟩

/-! ### specification -/

mutual
/-- The node with `Nil` for nil interfaces and `e` for nil lists. -/
def GNode.fill (e : Node X) : GNode X → Node X
  | .absent => .nil
  | .nilList => e
  | .leaf n => n
  | .list l => .list (fillL e l)
  | .map m => .map (fillM e m)
  | .pairs l => .pairs (fillP e l)
def fillL (e : Node X) : List (GNode X) → List (Node X)
  | [] => []
  | n :: l => n.fill e :: fillL e l
def fillM (e : Node X) : List (Str × GNode X) → List (Str × Node X)
  | [] => []
  | (k, n) :: l => (k, n.fill e) :: fillM e l
def fillP (e : Node X) : List ((Str × Str) × GNode X) → List ((Str × Str) × Node X)
  | [] => []
  | (k, n) :: l => (k, n.fill e) :: fillP e l
end

mutual
/-- There is no nil interface inside. -/
def GNode.Full : GNode X → Prop
  | .absent => False
  | .nilList => True
  | .leaf _ => True
  | .list l => FullL l
  | .map m => FullM m
  | .pairs l => FullP l
def FullL : List (GNode X) → Prop
  | [] => True
  | n :: l => n.Full ∧ FullL l
def FullM : List (Str × GNode X) → Prop
  | [] => True
  | (_, n) :: l => n.Full ∧ FullM l
def FullP : List ((Str × Str) × GNode X) → Prop
  | [] => True
  | (_, n) :: l => n.Full ∧ FullP l
end

/-- What is behind the pointers. -/
def base : Ty → Ty
  | .ptr t => base t
  | t => t

/-! ### texts -/

mutual
/-- C178: on the wire nil interfaces are `null`, and so are nil lists. -/
theorem C178_text : ∀ g : GNode X, g.text = (g.fill .nil).text
  | .absent => rfl
  | .nilList => rfl
  | .leaf _ => rfl
  | .list l => by simp only [GNode.text, GNode.fill, Node.text, textL_eq l]
  | .map m => by simp only [GNode.text, GNode.fill, Node.text, textM_eq m]
  | .pairs l => by simp only [GNode.text, GNode.fill, Node.text, textP_eq l]
theorem textL_eq : ∀ l : List (GNode X), textL l = Node.listText (fillL .nil l)
  | [] => rfl
  | [n] => by simp only [textL, fillL, Node.listText, C178_text n]
  | n :: n' :: l => by
    have := textL_eq (n' :: l)
    simp only [fillL] at this
    simp only [textL, fillL, Node.listText, C178_text n, this]
theorem textM_eq : ∀ l : List (Str × GNode X), textM l = Node.mapText (fillM .nil l)
  | [] => rfl
  | [(k, n)] => by simp only [textM, fillM, Node.mapText, C178_text n]
  | (k, n) :: (k', n') :: l => by
    have := textM_eq ((k', n') :: l)
    simp only [fillM] at this
    simp only [textM, fillM, Node.mapText, C178_text n, this]
theorem textP_eq : ∀ l : List ((Str × Str) × GNode X), textP l = Node.pairsText (fillP .nil l)
  | [] => rfl
  | [((_, k), n)] => by simp only [textP, fillP, Node.pairsText, C178_text n]
  | ((_, k), n) :: ((k'', k'), n') :: l => by
    have := textP_eq (((k'', k'), n') :: l)
    simp only [fillP] at this
    simp only [textP, fillP, Node.pairsText, C178_text n, this]
end

/-! ### native -/

theorem bind_ok {α β : Type} {x : Go α} {f : α → Go β} {b : β} (h : x.bind f = .ok b) : ∃ a, x = .ok a ∧ f a = .ok b := by
  cases x with
  | error e => cases h
  | ok a => exact ⟨a, rfl, h⟩

theorem map_ok {α β : Type} {x : Go α} {f : α → β} {b : β} (h : x.map f = .ok b) : ∃ a, x = .ok a ∧ f a = b := by
  cases x with
  | error e => cases h
  | ok a => exact ⟨a, rfl, Except.ok.inj h⟩

mutual
/-- C178: in memory, a node without nil interfaces is the node with empty lists for nil ones. -/
theorem C178_native_partial : ∀ g : GNode X, g.Full → g.native = .ok (g.fill (.list [])).native
  | .absent, h => h.elim
  | .nilList, _ => rfl
  | .leaf _, _ => rfl
  | .list l, h => by simp only [GNode.native, nativeL_eq l h, GNode.fill, Node.native]; rfl
  | .map m, h => by simp only [GNode.native, nativeM_eq m h, GNode.fill, Node.native]; rfl
  | .pairs l, h => by simp only [GNode.native, nativeP_eq l h, GNode.fill, Node.native]; rfl
theorem nativeL_eq : ∀ l : List (GNode X), FullL l → nativeL l = .ok (Node.listNative (fillL (.list []) l))
  | [], _ => rfl
  | n :: l, h => by simp only [nativeL, C178_native_partial n h.1, nativeL_eq l h.2, fillL, Node.listNative]; rfl
theorem nativeM_eq : ∀ l : List (Str × GNode X), FullM l → nativeM l = .ok (Node.mapNative (fillM (.list []) l))
  | [], _ => rfl
  | (k, n) :: l, h => by simp only [nativeM, C178_native_partial n h.1, nativeM_eq l h.2, fillM, Node.mapNative]; rfl
theorem nativeP_eq : ∀ l : List ((Str × Str) × GNode X), FullP l → nativeP l = .ok (Node.pairsNative (fillP (.list []) l))
  | [], _ => rfl
  | ((k, _), n) :: l, h => by simp only [nativeP, C178_native_partial n h.1, nativeP_eq l h.2, fillP, Node.pairsNative]; rfl
end

mutual
theorem native_full : ∀ (g : GNode X) (a : Any X), g.native = .ok a → g.Full
  | .absent, _, h => by cases h
  | .nilList, _, _ => trivial
  | .leaf _, _, _ => trivial
  | .list l, _, h => by obtain ⟨x, h, _⟩ := map_ok h; exact nativeL_full l x h
  | .map m, _, h => by obtain ⟨x, h, _⟩ := map_ok h; exact nativeM_full m x h
  | .pairs l, _, h => by obtain ⟨x, h, _⟩ := map_ok h; exact nativeP_full l x h
theorem nativeL_full : ∀ (l : List (GNode X)) (a : List (Any X)), nativeL l = .ok a → FullL l
  | [], _, _ => trivial
  | n :: l, _, h => by
    obtain ⟨x, h1, h2⟩ := bind_ok h
    obtain ⟨y, h2, _⟩ := map_ok h2
    exact ⟨native_full n x h1, nativeL_full l y h2⟩
theorem nativeM_full : ∀ (l : List (Str × GNode X)) (a : List (Str × Any X)), nativeM l = .ok a → FullM l
  | [], _, _ => trivial
  | (k, n) :: l, _, h => by
    obtain ⟨x, h1, h2⟩ := bind_ok h
    obtain ⟨y, h2, _⟩ := map_ok h2
    exact ⟨native_full n x h1, nativeM_full l y h2⟩
theorem nativeP_full : ∀ (l : List ((Str × Str) × GNode X)) (a : List (Str × Any X)), nativeP l = .ok a → FullP l
  | [], _, _ => trivial
  | ((k, _), n) :: l, _, h => by
    obtain ⟨x, h1, h2⟩ := bind_ok h
    obtain ⟨y, h2, _⟩ := map_ok h2
    exact ⟨native_full n x h1, nativeP_full l y h2⟩
end

/-- C178 is violated: with a nil interface anywhere inside, however deep, unmarshalling into an `any` panics, although the text is that of `Nil`. -/
theorem C178_native_violated (g : GNode X) (h : ¬ g.Full) : ∃ p, g.native = .error p := by
  cases hn : g.native with
  | error p => exact ⟨p, rfl⟩
  | ok a => exact absurd (native_full g a hn) h

/-- C178 is violated: a nil list is an empty list in memory, and no list at all for whoever reads the text. -/
theorem C178_list_violated : (GNode.nilList : GNode X).native = (GNode.list [] : GNode X).native ∧
    decode (X := X) (GNode.text (.nilList : GNode X)) = some (some .nil) ∧ decode (X := X) (GNode.text (.list [] : GNode X)) = some (some (.list [])) :=
  ⟨rfl, rfl, rfl⟩

/-! ### Marshal -/

/-- C178: `Marshal` takes nil interfaces out of maps and pairs (`fill`), if their text can be read, and makes `Nil` of one. -/
theorem C178_marshal (g : GNode X) (n : Node X) (hg : g = .absent ∨ (∃ m, g = .map m) ∨ ∃ l, g = .pairs l) (hn : decode (X := X) (g.fill .nil).text = some (some n)) : marshalG g = .ok (.leaf n) := by
  rcases hg with rfl | ⟨m, rfl⟩ | ⟨l, rfl⟩
  · cases hn; rfl
  · rw [← C178_text] at hn; simp only [marshalG, hn]
  · rw [← C178_text] at hn; simp only [marshalG, hn]

/-- C178 is violated: but not out of lists, so that what `Marshal` returns can not be unmarshalled into an `any`. -/
theorem C178_marshal_violated (l : List (GNode X)) (h : ¬ FullL l) : marshalG (.list l) = .ok (.list l) ∧ ∃ p, (GNode.list l).native = .error p :=
  ⟨rfl, C178_native_violated (.list l) h⟩

/-! ### Unmarshal into types -/

/-- The types for which a nil interface is as good as `Nil`, behind pointers. -/
def Tolerant : Ty → Prop
  | .time | .encTime | .encDur => True
  | _ => False

/-- C178: times and durations take a nil interface for `Nil`. -/
theorem C178_into_partial (H : Handler X) (O : Order) (t : Ty) (old : Val X t) (h : Tolerant t) : absentInto t old = Enc.unmarshal H O t .nil old := by
  cases t <;> first | exact h.elim | (simp only [absentInto, Enc.unmarshal]; rfl)

/-- C178 is violated: but behind a pointer a nil interface gives a new variable, where `Nil` gives nil. -/
theorem C178_pointer_violated (H : Handler X) (O : Order) (t : Ty) (old : Val X (.ptr t)) : (Enc.unmarshal H O (.ptr t) .nil old).val = (none : Option (Val X t)) ∧
    (absentInto (.ptr t) old).val ≠ (none : Option (Val X t)) := by
  constructor
  · simp only [Enc.unmarshal, uPtr, Out.done]; rfl
  · simp only [absentInto]; exact fun h => by cases h

/-- C178 is violated: an `enc.Node` can tell them apart. -/
theorem C178_node_violated (H : Handler X) (O : Order) (old : Val X .node) : absentInto .node old = .done (none : Option (Node X)) ∧ Enc.unmarshal H O .node .nil old = .done (some .nil : Option (Node X)) :=
  ⟨by simp only [absentInto], by simp only [Enc.unmarshal]⟩

/-- C178 is violated: into any other type but `enc.Node` it panics. -/
theorem C178_into_violated (t : Ty) (old : Val X t) (h : ¬ Tolerant (base t)) (hn : base t ≠ .node) : (absentInto t old).st = .panic := by
  induction t using Ty.rec (motive_2 := fun _ => True) with
  | ptr t ih => simp only [absentInto]; exact ih (zero X t) h hn
  | node => exact absurd rfl hn
  | time => exact absurd trivial h
  | encTime => exact absurd trivial h
  | encDur => exact absurd trivial h
  | nil => trivial
  | cons => trivial
  | _ => simp only [absentInto, Out.mk']

/-- Lists without nil are as in Enc/Unmarshal.lean. -/
theorem C178_elems (H : Handler X) (O : Order) (t : Ty) (l : List (Node X)) (old : Val X (.slice t)) : listInto H O t (l.map some) old = Enc.unmarshal H O (.slice t) (.list l) old := by
  have : ∀ l : List (Node X), elemsInto H O t (l.map some) = uElems (fun n => Enc.unmarshal H O t n (zero X t)) l := by
    intro l
    induction l with
    | nil => rfl
    | cons n l ih => simp only [List.map_cons, elemsInto, elemInto, uElems, ih]; cases (Enc.unmarshal H O t n (zero X t)).st <;> rfl
  unfold listInto
  rw [this]
  simp only [Enc.unmarshal, uSlice]
  rfl

/-- C178 is violated: a list with a nil element, all of whose elements before can be unmarshalled, panics for slices of nearly all types. -/
theorem C178_slice_violated (H : Handler X) (O : Order) (t : Ty) (l : List (Node X)) (r : List (Option (Node X))) (old : Val X (.slice t)) (ht : ¬ Tolerant (base t)) (hn : base t ≠ .node)
    (hl : ∀ n ∈ l, (Enc.unmarshal H O t n (zero X t)).st = .ok) : listInto H O t (l.map some ++ none :: r) old = ⟨old, .panic, ((elemsInto H O t (l.map some ++ none :: r))).calls⟩ := by
  have : (elemsInto H O t (l.map some ++ none :: r)).st = .panic := by
    induction l with
    | nil =>
      have := C178_into_violated (X := X) t (zero X t) ht hn
      simp only [List.map_nil, List.nil_append, elemsInto, elemInto]
      rw [this]
    | cons n l ih =>
      have h1 := hl n (by simp)
      have h2 := ih fun m hm => hl m (by simp [hm])
      simp only [List.map_cons, List.cons_append, elemsInto, elemInto, h1, h2]
  unfold listInto Out.assign
  rw [this]

/-- Maps without nil are as in Enc/Unmarshal.lean. -/
theorem C178_fields (H : Handler X) (O : Order) : ∀ (fs : Fields) (m : List (Str × Node X)) (old : FVals X fs),
    fieldsInto H O fs (m.map fun e => (e.1, some e.2)) old = uFields H O fs m old := by
  have hk : ∀ (k : Str) (m : List (Str × Node X)), lookupKey k (m.map fun e => (e.1, some e.2)) = (lookupKey k m).map some := by
    intro k m
    induction m with
    | nil => rfl
    | cons e m ih =>
      obtain ⟨a, b⟩ := e
      simp only [List.map_cons, lookupKey]
      split <;> simp_all
  intro fs m
  induction fs using Fields.rec (motive_1 := fun _ => True) with
  | bool | int | uint | float64 | float32 | string | any | node | time | encTime | encDur | func | chan | iface => trivial
  | ptr | slice | array | map | struct => trivial
  | nil => intro old; rfl
  | cons f t fs _ ih =>
    intro old
    obtain ⟨v, vs⟩ := old
    simp only [fieldsInto, uFields, ih, hk]
    split
    · cases hp : parseTag f with
      | none => rfl
      | some tag =>
        cases hl : lookupKey tag.json m with
        | none => simp only [Option.map_none, hl]
        | some n => simp only [Option.map_some, elemInto, hl]; cases (Enc.unmarshal H O t n v).st <;> rfl
    · rfl

/-- C178 is violated: a map with a nil member panics for a struct whose first field is that member. -/
theorem C178_field_violated (H : Handler X) (O : Order) (f : FieldInfo) (t : Ty) (fs : Fields) (m : List (Str × Option (Node X))) (tag : Tag) (v : Val X t) (vs : FVals X fs) (hf : f.exported = true)
    (hp : parseTag f = some tag) (hm : lookupKey tag.json m = some none) (ht : ¬ Tolerant (base t)) (hn : base t ≠ .node) : (fieldsInto H O (.cons f t fs) m (v, vs)).st = .panic := by
  have := C178_into_violated (X := X) t v ht hn
  simp only [fieldsInto, hf, if_true, hp, hm, elemInto, this]

/-! ### concrete cases -/

/-- `enc.Map{"a": nil, "b": enc.List{nil, enc.List(nil)}}`. -/
def sample : GNode XT := .map [(lit "a", .absent), (lit "b", .list [.absent, .nilList])]

example : sample.text = lit "{\"a\":null,\"b\":[null,null]}" ∧ (∃ p, sample.native = .error p) ∧
    marshalG sample = .ok (.leaf (.map [(lit "a", .nil), (lit "b", .list [.nil, .nil])])) :=
  ⟨by decide +kernel, ⟨.nilDeref, rfl⟩, C178_marshal sample _ (Or.inr (Or.inl ⟨_, rfl⟩)) (by decide +kernel)⟩

example : (GNode.list [.nilList, .leaf (.int 1)] : GNode XT).native = .ok (.list [.list [], .i64 1]) := rfl

/-- Into `[]string`. -/
example : (listInto (X := XT) ⟨none⟩ sortedOrder .string [some (.str (lit "a")), none] none).st = .panic := rfl

/-- Into `[]enc.Duration`. -/
example : (listInto (X := XT) ⟨none⟩ sortedOrder .encDur [none, none] none).st = .ok := rfl

end Verif.Enc.Nils

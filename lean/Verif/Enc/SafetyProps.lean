import Verif.Enc.SafetyLemmas
import Verif.Enc.TypedProps
/-!
# Panics, iteration order, dynamic types (properties C73-C77)
-/
set_option autoImplicit false
namespace Verif.Enc
open Verif.Strconv
variable {X : Ext}

/-- C73: whatever decodes can be encoded again, without a panic, and that text decodes to the same node. -/
theorem C73_reencode (hX : Laws X) (s : Str) (n : Node X) (h : decode s = some (some n)) : ∃ t, encode n = .ok t ∧ decode t = some (some n) := by
  obtain ⟨h1, h2, h3, h4⟩ := decode_decoded s n h
  have he : encode n = .ok n.text := by unfold encode; rw [if_pos h3]
  exact ⟨_, he, C39_plain hX n h2 h1 _ he h4⟩

/-- C73: and it consists of nil, booleans, strings, valid numbers, lists and maps with distinct keys, nested at most 10000 deep. -/
theorem C73_decoded (s : Str) (n : Node X) (h : decode s = some (some n)) : n.plain = true ∧ n.WF ∧ n.encodable = true ∧ n.depth ≤ maxDepth :=
  decode_decoded s n h

/-- C74: marshalling never panics, for all types without channels, nodes and pointers to times and durations, and with valid tags. -/
theorem C74_partial (O : Order) (t : Ty) (v : Val X t) (h : t.marshalSafe = true) : marshal O t v ≠ .panic := marshal_no_panic O t v h

/-- C74 is violated: a nil pointer to a `time.Time`, `enc.Time` or `enc.Duration` panics, and so does a struct with such a field. -/
theorem C74_violated (O : Order) :
    marshal (X := X) O (.ptr .time) (none : Option X.T) = .panic ∧ marshal (X := X) O (.ptr .encTime) (none : Option X.T) = .panic ∧
    marshal (X := X) O (.ptr .encDur) (none : Option Int) = .panic ∧
    marshal (X := X) O (.struct (.cons { name := lit "Deleted" } (.ptr .time) .nil)) ((none : Option X.T), ()) = .panic := by
  refine ⟨rfl, rfl, rfl, ?_⟩
  have hp : parseTag { name := lit "Deleted" } = some ⟨lit "Deleted", lit "Deleted", false, false⟩ := by decide
  have hf : marshalFields (X := X) O (.cons { name := lit "Deleted" } (.ptr .time) .nil) ((none : Option X.T), ()) = .panic := by
    simp only [marshalFields, hp]; rfl
  simp only [marshal]
  exact congrArg (fun r => Res.bind r _) hf

/-- C75: unmarshalling any text into any variable does not panic, for all types without interfaces that have methods, and with valid tags. -/
theorem C75_partial (H : Handler X) (O : Order) (t : Ty) (s : Str) (old : Val X t) (h : t.unmarshalSafe = true) : (unmarshalJSON H O t s old).st ≠ .panic := by
  unfold unmarshalJSON
  cases hd : decode (X := X) s with
  | none => simp [Out.mk']
  | some o =>
    simp only [Handler.unmarshal]
    cases o with
    | none => exact unmarshal_no_panic H O t .nil old h ⟨rfl, rfl⟩
    | some n =>
      obtain ⟨h1, _, h3, _⟩ := decode_decoded s n hd
      exact unmarshal_no_panic H O t n old h ⟨h1, h3⟩

/-- C75 is violated: the text `{"E":1}` into a struct with a field `E` of an interface type with methods (say `error`) panics. -/
theorem C75_violated (hX : Laws X) (H : Handler X) (O : Order) : (unmarshalJSON H O (.struct (.cons { name := lit "E" } .iface .nil)) (lit "{\"E\":1}") ((), ())).st = .panic := by
  have hd : decode (X := X) (lit "{\"E\":1}") = some (some (.map [(lit "E", .digits (lit "1"))])) := by
    have he : encode (X := X) (.map [(lit "E", .digits (lit "1"))]) = .ok (lit "{\"E\":1}") := by
      unfold encode
      have hn : isNumber (lit "1") = true := by decide
      rw [if_pos (by simp [Node.encodable, Node.mapEncodable, Node.mapDepth, Node.depth, hn, maxDepth])]
      simp only [Node.text, Node.mapText]
      decide
    exact C39_plain hX (.map [(lit "E", .digits (lit "1"))]) ⟨by simp [SortedKeys], trivial, trivial⟩ rfl _ he (by simp only [Node.depth, Node.mapDepth]; decide)
  unfold unmarshalJSON
  rw [hd]
  rfl

/-- C76: a value that is marshalled is marshalled to the same node whatever the order in which maps are visited. -/
theorem C76_marshal (O O' : Order) (t : Ty) (v : Val X t) (n : Node X) (hv : WFVal t v) (h : marshal O t v = .ok n) : marshal O' t v = .ok n :=
  marshal_order O O' t v n hv h

/-- C76: unmarshalling into types whose maps have string keys: success, and the value, do not depend on the order. -/
theorem C76_unmarshal_partial (H : Handler X) (O O' : Order) (t : Ty) (n : Node X) (old : Val X t) (ht : t.strKeys = true) (hn : n.WF)
    (h : (unmarshal H O t n old).st = .ok) : (unmarshal H O' t n old).st = .ok ∧ (unmarshal H O' t n old).val = (unmarshal H O t n old).val :=
  unmarshal_order H O O' t n old ht hn h

/-- Visiting maps backwards. -/
def backwards : Order := ⟨fun l => l.reverse, fun l => List.reverse_perm l⟩

/-- C76 is violated: `{"1":true,"01":false}` into a `map[int64]bool` gives 1 ↦ false or 1 ↦ true depending on the order. -/
theorem C76_violated (H : Handler X) : ∃ (n : Node X), n.WF ∧
    (unmarshal H sortedOrder (.map (.int .w64) .bool) n (zero X _)) = .done (some [(lit "1", true)] : Option (List (Str × Bool))) ∧
    (unmarshal H backwards (.map (.int .w64) .bool) n (zero X _)) = .done (some [(lit "1", false)] : Option (List (Str × Bool))) := by
  have k1 : normKey (.int .w64) (lit "1") = some (lit "1") := by decide +kernel
  have k2 : normKey (.int .w64) (lit "01") = some (lit "1") := by decide +kernel
  have i1 : ∀ b c : Bool, insertKey (lit "1") b (insertKey (lit "1") c []) = [(lit "1", b)] := by decide
  refine ⟨.map [(lit "01", .bool false), (lit "1", .bool true)], ⟨?_, trivial, trivial, trivial⟩, ?_, ?_⟩
  · simp only [SortedKeys, List.pairwise_cons, List.mem_singleton, forall_eq, List.not_mem_nil, false_imp_iff, implies_true, List.Pairwise.nil, and_true]
    decide
  · apply un_map
    show uEntries (.int .w64) (fun n => unmarshal H sortedOrder .bool n (zero X .bool)) [(lit "01", .bool false), (lit "1", .bool true)] [] = _
    simp only [uEntries, k1, k2]
    exact congrArg Out.done (i1 true false)
  · apply un_map
    show uEntries (.int .w64) (fun n => unmarshal H backwards .bool n (zero X .bool)) [(lit "1", .bool true), (lit "01", .bool false)] [] = _
    simp only [uEntries, k1, k2]
    exact congrArg Out.done (i1 false true)

/-- C77: nil, booleans, strings, floats that JSON can represent, and lists and maps of these survive in an `any`. -/
theorem C77_partial (hX : Laws X) (O O' : Order) (H : Handler X) (a : Any X) (h : a.Faithful true) (hd : (Any.marshal a).depth ≤ maxDepth) :
    ∃ s, marshalJSON O .any a = .ok s ∧ unmarshalJSON H O' .any s Any.nil = .done a := by
  obtain ⟨n, h1, h2⟩ := C41_round_trip hX O O' H .any a h
  have h1 : Res.ok (Any.marshal a) = Res.ok n := h1
  injection h1 with h1; subst h1
  exact h2 hd

/-- C77 is violated: an integer in an `any` comes back as a float. -/
theorem C77_violated (hX : Laws X) (O O' : Order) (H : Handler X) (i : Int) (f : X.F) (hf : X.fParse (fmtInt i) = some f) :
    ∃ s, marshalJSON (X := X) O .any (Any.i64 i) = .ok s ∧ unmarshalJSON H O' .any s Any.nil = .done (Any.f64 f) := by
  refine ⟨fmtInt i, rfl, ?_⟩
  unfold unmarshalJSON
  rw [show decode (X := X) (fmtInt i) = _ from C39_round_trip hX (.int i) trivial _ rfl (Nat.zero_le _)]
  show Out.done (Node.digits (fmtInt i)).intoAny = _
  simp only [Node.intoAny, Node.native, hf]; rfl

/-! ### concrete cases -/
section Examples

example : (Ty.struct outerTy).marshalSafe = false ∧ (Ty.struct innerTy).marshalSafe = true ∧ (Ty.struct outerTy).unmarshalSafe = true ∧
    (Ty.struct outerTy).strKeys = true := by decide +kernel
/-- A type mismatch in the middle of an object is an error, not a panic. -/
example : (unmarshalJSON acceptAll backwards (.struct innerTy) (lit "{\"X\":1.5,\"at\":[]}") (zero XT _)).st = .err := by decide +kernel
example : (unmarshalJSON acceptAll backwards (.struct innerTy) (lit "{\"X\":1.5,\"at\":\"2020-01-02T03:04:05Z\"}") (zero XT _)).st = .ok := by decide +kernel
/-- The assumption on floats in C77 can be met. -/
example : XT.fParse (fmtInt 0) = some XT.fZero := by decide +kernel

end Examples

end Verif.Enc

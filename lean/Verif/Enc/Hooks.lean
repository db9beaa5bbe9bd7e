import Verif.Enc.SafetyProps
import Verif.Enc.Compact
/-!
# Types with methods of `encoding/json`, and `json.RawMessage` (C138)

`Marshal` calls `MarshalJSON` and decodes what it returns (enc/handler.go L190-195); `Unmarshal` encodes the node and calls `UnmarshalJSON` (L95-101). A type is given by what these methods
do; `json.RawMessage` is the one whose target is written without a method (L79-86).
-/
set_option autoImplicit false
namespace Verif.Enc.Hooks
open Verif.Strconv Verif.Enc
variable {X : Ext}

/-- A type with both methods. `UnmarshalJSON` is always declared on the pointer; `onPointer` tells whether `MarshalJSON` is, too. Then a value that is not behind a pointer does not have it, and
is marshalled by its kind. enc/handler.go L95-101, L190-195. -/
structure Hooked (X : Ext) (V : Type) where
  onPointer : Bool
  marshalJSON : V → Res Str
  /-- `MarshalJSON` called with a nil pointer, if it is declared on the pointer -/
  marshalNil : Res Str
  unmarshalJSON : Str → V → V × Status
  /-- what `Marshal` makes of it by its kind -/
  byKind : V → Res (Node X)
  zero : V

/-- What is done with the bytes of `MarshalJSON`; the node is nil, as an interface, if there are none. enc/handler.go L190-195, enc/json.go L74-86. -/
def viaJSON (r : Res Str) : Res (Option (Node X)) :=
  r.bind fun s => match decode s with
    | some n => .ok n
    | none => .err

/-- `Marshal` of a value of the type. enc/handler.go L175-197. -/
def marshalVal {V : Type} (T : Hooked X V) (v : V) : Res (Option (Node X)) :=
  if T.onPointer then (T.byKind v).bind fun n => .ok (some n) else viaJSON (T.marshalJSON v)

/-- `Marshal` of a pointer to the type: the methods of the value are called through it, which panics if it is nil (enc/handler.go L190-191, before L218-222 looks at nil pointers). -/
def marshalPtr {V : Type} (T : Hooked X V) (v : Option V) : Res (Option (Node X)) :=
  match v with
  | some v => viaJSON (T.marshalJSON v)
  | none => if T.onPointer then viaJSON T.marshalNil else .panic

/-- `json.Marshal(from)`, the error of which is dropped: then there are no bytes. enc/handler.go L99. -/
def jsonOf (n : Node X) : Str := if n.encodable then n.text else []

/-- `Unmarshal` into a variable of the type. enc/handler.go L95-101. -/
def unVal {V : Type} (T : Hooked X V) (n : Node X) (old : V) : V × Status :=
  if !n.encodable && n.jsonPanics then (old, .panic) else T.unmarshalJSON (jsonOf n) old

/-- `Unmarshal` into a pointer to the type. enc/handler.go L60-73. -/
def unPtr {V : Type} (T : Hooked X V) (n : Node X) : Option V × Status :=
  match n with
  | .nil => (none, .ok)
  | n => let r := unVal T n T.zero; (some r.1, r.2)

/-- `MarshalJSON` of a `json.RawMessage`: `null` if it is nil. encoding/json, called at enc/handler.go L191. -/
def rawText : Option Str → Str
  | none => lit "null"
  | some s => s

/-- `Marshal` of a `json.RawMessage`. enc/handler.go L190-195. -/
def marshalRaw (r : Option Str) : Res (Option (Node X)) := viaJSON (.ok (rawText r))

/-- `Unmarshal` into a `json.RawMessage`: `Encode` panics on errors. enc/handler.go L79-86. -/
def unRaw (n : Node X) (old : Option Str) : Option Str × Status :=
  match encode n with
  | .ok s => (some s, .ok)
  | .error _ => (old, .panic)

/-- `JSON{}.Encode` of what `Marshal` returned, which may be a nil interface. enc/json.go L28-34, L50-64. -/
def encodeOpt : Option (Node X) → Go Str
  | none => .ok (lit "null")
  | some n => encode n

/-! ### `json.RawMessage` -/

/-- A document put into a `json.RawMessage` comes out as text with the same meaning, and marshals as the node it was made of. -/
theorem C138_raw (hX : Laws X) (s : Str) (n : Node X) (h : decode s = some (some n)) (old : Option Str) :
    ∃ t, unRaw n old = (some t, .ok) ∧ decode t = some (some n) ∧ marshalRaw (some t) = .ok (some n) := by
  obtain ⟨t, he, hd⟩ := C73_reencode hX s n h
  refine ⟨t, by simp [unRaw, he], hd, ?_⟩
  simp [marshalRaw, viaJSON, rawText, Res.bind, hd]

/-- A `json.RawMessage` that holds one document marshals as that document's node; nil marshals as null; what does not begin with a value is an error. -/
theorem C138_raw_marshal_partial (s : Str) :
    (∀ n : Node X, Doc maxDepth s n → marshalRaw (some s) = .ok (some n)) ∧ marshalRaw (X := X) none = .ok (some .nil) ∧
      (s ≠ [] → (∀ n : Node X, ¬ Means s n) → marshalRaw (X := X) (some s) = .err) := by
  refine ⟨?_, rfl, ?_⟩
  · rintro n ⟨w, t, w', rfl, hw, hw', ht⟩
    simp only [marshalRaw, viaJSON, rawText, Res.bind, (C114_document w t w' n hw hw' ht).1]
  · intro h1 h2
    simp only [marshalRaw, viaJSON, rawText, Res.bind, ((C114_refused (X := X) s).1).2 ⟨h1, h2⟩]

/-- C138 is violated: of a `json.RawMessage` that holds more than one value only the first is written, without an error; `encoding/json` refuses it. -/
theorem C138_trailing_violated (hX : Laws X) (n : Node X) (hwf : n.WF) (t rest : Str) (he : encode n = .ok t) (hd : n.depth ≤ maxDepth)
    (hbad : ∀ m : Node X, ¬ Doc maxDepth (t ++ ' ' :: rest) m) :
    marshalRaw (some (t ++ ' ' :: rest)) = .ok (some n.norm) ∧ viaMarshalJSON X (t ++ ' ' :: rest) = none := by
  refine ⟨?_, (viaMarshalJSON_none _).2 hbad⟩
  simp only [marshalRaw, viaJSON, rawText, Res.bind, C72_violated hX n hwf t rest he hd]

/-- C138 is violated: an empty `json.RawMessage` (and any `MarshalJSON` that returns nothing) marshals without an error as no node at all, which `Encode` writes as null. -/
theorem C138_empty_violated : marshalRaw (X := X) (some []) = .ok none ∧ encodeOpt (X := X) none = .ok (lit "null") := ⟨rfl, rfl⟩

/-- C138 is violated: a node that can not be encoded panics when it is put into a `json.RawMessage`, instead of returning an error. -/
theorem C138_raw_violated (n : Node X) (h : n.encodable = false) (old : Option Str) : unRaw n old = (old, .panic) := by simp [unRaw, encode, h]

/-! ### methods -/

/-- What `UnmarshalJSON` is given for a node that came from JSON: text with the same meaning. -/
theorem C138_given {V : Type} (hX : Laws X) (T : Hooked X V) (s : Str) (n : Node X) (h : decode s = some (some n)) (old : V) :
    ∃ t, decode t = some (some n) ∧ unVal T n old = T.unmarshalJSON t old := by
  obtain ⟨t, he, hd⟩ := C73_reencode hX s n h
  have henc := (C73_decoded s n h).2.2.1
  refine ⟨n.text, ?_, by simp [unVal, jsonOf, henc]⟩
  unfold encode at he
  rw [if_pos henc] at he
  injection he with he
  rw [he]; exact hd

/-- C138: a type whose `MarshalJSON` writes a document, and whose `UnmarshalJSON` understands every text with the same meaning, comes back from `Marshal`, `Encode`, `Decode` and `Unmarshal`, by value
if `MarshalJSON` is declared on the value, and behind a pointer unless it writes null. -/
theorem C138_round_partial {V : Type} (hX : Laws X) (T : Hooked X V) (v old : V) (s : Str) (n : Node X) (hs : T.marshalJSON v = .ok s) (hn : decode s = some (some n))
    (hu : ∀ t, decode (X := X) t = some (some n) → ∀ old, T.unmarshalJSON t old = (v, .ok)) :
    (T.onPointer = false → marshalVal T v = .ok (some n)) ∧ marshalPtr T (some v) = .ok (some n) ∧
      ∃ t, encode n = .ok t ∧ decode t = some (some n) ∧ unVal T n old = (v, .ok) ∧ (n ≠ .nil → unPtr T n = (some v, .ok)) := by
  obtain ⟨t, he, hd⟩ := C73_reencode hX s n hn
  have hv : ∀ old, unVal T n old = (v, .ok) := by
    intro old
    obtain ⟨t, ht, h⟩ := C138_given hX T s n hn old
    rw [h]; exact hu t ht old
  refine ⟨fun ho => ?_, ?_, t, he, hd, hv old, fun hnil => ?_⟩
  · simp [marshalVal, ho, viaJSON, hs, Res.bind, hn]
  · simp [marshalPtr, viaJSON, hs, Res.bind, hn]
  · cases n with
    | nil => exact absurd rfl hnil
    | _ => simp [unPtr, hv]

/-- C138: null is not shown to `UnmarshalJSON` behind a pointer, as in `encoding/json`: the pointer becomes nil. Anything else is given to a new value, the error of which is returned. -/
theorem C138_null {V : Type} (T : Hooked X V) (old : V) : unPtr T (.nil : Node X) = (none, .ok) ∧ unVal T (.nil : Node X) old = T.unmarshalJSON (lit "null") old ∧
    ∀ n : Node X, n ≠ .nil → n.encodable = true → unPtr T n = (some (T.unmarshalJSON n.text T.zero).1, (T.unmarshalJSON n.text T.zero).2) := by
  refine ⟨rfl, rfl, fun n hn he => ?_⟩
  cases n with
  | nil => exact absurd rfl hn
  | _ => simp [unPtr, unVal, jsonOf, he]

/-- C138 is violated: a nil pointer to any type with `MarshalJSON` on the value panics; `encoding/json` writes null. -/
theorem C138_nil_violated {V : Type} (T : Hooked X V) (h : T.onPointer = false) : marshalPtr T none = .panic := by simp [marshalPtr, h]

/-- C138 is violated: a value whose methods are both declared on the pointer is written by its kind and read by its method: what is written differs from what is written for a pointer to it, and comes
back only if its own `UnmarshalJSON` happens to understand it. -/
theorem C138_pointer_violated : ∃ (T : Hooked X Str), (∀ v w, (T.unmarshalJSON (jsonStr v) w).2 = .err) ∧
    (∀ v w s, T.marshalJSON v = .ok s → T.unmarshalJSON s w = (v, .ok)) ∧
    ∀ v w, ∃ n, marshalVal T v = .ok (some n) ∧ unVal T n w = (w, .err) := by
  refine ⟨⟨true, fun v => .ok ('[' :: (jsonStr v ++ [']'])), .ok (lit "null"),
    fun s old => match s with
      | '[' :: '"' :: r => match parseStr r with
        | some (v, _) => (v, .ok)
        | none => (old, .err)
      | _ => (old, .err), fun v => .ok (.str v), []⟩, fun v w => rfl, ?_, fun v w => ⟨.str v, rfl, rfl⟩⟩
  intro v w s hs
  injection hs with hs
  subst hs
  have : parseStr (v.flatMap escJson ++ '"' :: [']']) = some (v, [']']) := parseStr_jsonStr v [']']
  simp [jsonStr, this]

/-- What `UnmarshalJSON` sees depends only on the meaning of what `MarshalJSON` wrote. -/
theorem C138_meaning {V : Type} (T : Hooked X V) (v w : V) (s t : Str) (hs : T.marshalJSON v = .ok s) (ht : T.marshalJSON w = .ok t) (h : decode (X := X) s = decode t)
    (ho : T.onPointer = false) : marshalVal T v = marshalVal T w := by
  simp [marshalVal, ho, viaJSON, hs, ht, Res.bind, h]

/-- C138 is violated: the members of an object arrive in the order of their names, and a repeated name arrives once, so of a type that keeps what it reads as it is, which gets the text itself from
`encoding/json`, two values that differ can not both come back. -/
theorem C138_order_violated {V : Type} (hX : Laws X) (T : Hooked X V) (v w old : V) (hvw : v ≠ w) (ho : T.onPointer = false) (hs : T.marshalJSON v = .ok (lit "{\"b\":1,\"a\":2,\"b\":3}"))
    (ht : T.marshalJSON w = .ok (lit "{\"a\":2,\"b\":3}")) :
    ∃ n, marshalVal T v = .ok (some n) ∧ marshalVal T w = .ok (some n) ∧ unVal T n old = T.unmarshalJSON (lit "{\"a\":2,\"b\":3}") old ∧
      ¬ (unVal T n old = (v, .ok) ∧ unVal T n old = (w, .ok)) := by
  have h1 : isNumber (lit "1") = true := by decide
  have h2 : isNumber (lit "2") = true := by decide
  have h3 : isNumber (lit "3") = true := by decide
  have he : (Node.map [(lit "a", .digits (lit "2")), (lit "b", .digits (lit "3"))] : Node X).encodable = true := by
    simp [Node.encodable, Node.mapEncodable, Node.mapDepth, Node.depth, h2, h3, maxDepth]
  have htx : (Node.map [(lit "a", .digits (lit "2")), (lit "b", .digits (lit "3"))] : Node X).text = lit "{\"a\":2,\"b\":3}" := by
    simp only [Node.text, Node.mapText]; decide
  have hp : ∀ k : Str, (Node.pairs [((k, lit "b"), .digits (lit "1")), ((k, lit "a"), .digits (lit "2")), ((k, lit "b"), .digits (lit "3"))] : Node X).encodable = true := by
    intro k; simp [Node.encodable, Node.pairsEncodable, Node.pairsDepth, Node.depth, h1, h2, h3, maxDepth]
  have hptx : (Node.pairs [(([], lit "b"), .digits (lit "1")), (([], lit "a"), .digits (lit "2")), (([], lit "b"), .digits (lit "3"))] : Node X).text =
      lit "{\"b\":1,\"a\":2,\"b\":3}" := by
    simp only [Node.text, Node.pairsText]; decide
  refine ⟨.map [(lit "a", .digits (lit "2")), (lit "b", .digits (lit "3"))], ?_, ?_, ?_, ?_⟩
  · have := C39_round_trip hX (Node.pairs [(([], lit "b"), .digits (lit "1")), (([], lit "a"), .digits (lit "2")), (([], lit "b"), .digits (lit "3"))])
      (by simp [Node.WF, Node.pairsWF]) _ (by rw [encode, if_pos (hp [])]) (by simp [Node.depth, Node.pairsDepth, maxDepth])
    rw [hptx] at this
    have hnorm : (Node.pairs [(([], lit "b"), .digits (lit "1")), (([], lit "a"), .digits (lit "2")), (([], lit "b"), .digits (lit "3"))] : Node X).norm =
        .map [(lit "a", .digits (lit "2")), (lit "b", .digits (lit "3"))] := rfl
    rw [hnorm] at this
    simp [marshalVal, ho, viaJSON, hs, Res.bind, this]
  · have := C39_plain hX (Node.map [(lit "a", .digits (lit "2")), (lit "b", .digits (lit "3"))])
      (by refine ⟨?_, trivial, trivial, trivial⟩; simp [SortedKeys]; decide) rfl _ (by rw [encode, if_pos he]) (by simp [Node.depth, Node.mapDepth, maxDepth])
    rw [htx] at this
    simp [marshalVal, ho, viaJSON, ht, Res.bind, this]
  · simp [unVal, jsonOf, he, htx]
  · rintro ⟨h1, h2⟩
    rw [h1] at h2
    injection h2 with h2
    exact hvw h2

/-- C138 is violated: of a node that can not be encoded, say a `Float` that is not a number or `Digits` that are none, `UnmarshalJSON` is given no bytes instead of an error. -/
theorem C138_dropped_violated {V : Type} (T : Hooked X V) (n : Node X) (old : V) (h : n.encodable = false) (hp : n.jsonPanics = false) :
    unVal T n old = T.unmarshalJSON [] old := by simp [unVal, jsonOf, h, hp]

/-- A string with methods that write and read it as a list of one string. -/
def boxed (X : Ext) (onPointer : Bool) : Hooked X Str where
  onPointer := onPointer
  marshalJSON v := .ok (Node.text (X := X) (.list [.str v]))
  marshalNil := .ok (lit "null")
  unmarshalJSON t old := match decode (X := X) t with
    | some (some (.list [.str v])) => (v, .ok)
    | _ => (old, .err)
  byKind v := .ok (.str v)
  zero := []

/-- It comes back. -/
example (hX : Laws X) (v old : Str) : marshalVal (boxed X false) v = .ok (some (.list [.str v])) ∧ unVal (boxed X false) (.list [.str v]) old = (v, .ok) := by
  have hd : decode (X := X) (Node.text (X := X) (.list [.str v])) = some (some (.list [.str v])) :=
    C39_plain hX (.list [.str v]) (by simp [Node.WF, Node.listWF]) rfl _ (by rw [encode, if_pos (by simp [Node.encodable, Node.listEncodable])])
      (by simp [Node.depth, Node.listDepth, maxDepth])
  have h := C138_round_partial hX (boxed X false) v old _ (.list [.str v]) rfl hd (fun t ht old => by simp [boxed, ht])
  obtain ⟨h1, _, t, _, _, h2, _⟩ := h
  exact ⟨h1 rfl, h2⟩

/-- Two numbers in a `json.RawMessage`. -/
example (hX : Laws X) : marshalRaw (X := X) (some (lit "1 2")) = .ok (some (.digits (lit "1"))) ∧ viaMarshalJSON X (lit "1 2") = none := by
  have h1 : isNumber (lit "1") = true := by decide
  have hp : parseValue (X := X) (fuelFor (lit "1 2")) maxDepth (lit "1 2") = some (.digits (lit "1"), lit " 2") :=
    parseValue_number _ _ (lit "1") (lit " 2") (by show Stops [Char.ofNat 32, Char.ofNat 50]; simp [Stops]; decide) h1
  have hv : viaMarshalJSON X (lit "1 2") = none := by
    simp only [viaMarshalJSON, validDoc, hp]; decide
  exact ⟨(C138_trailing_violated hX (.digits (lit "1")) trivial (lit "1") (lit "2") (by simp [encode, Node.encodable, h1, Node.text]) (by simp [Node.depth])
    ((viaMarshalJSON_none _).1 hv)).1, hv⟩

end Verif.Enc.Hooks

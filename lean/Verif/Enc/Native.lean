import Verif.Enc.Compact
import Verif.Enc.Unmarshal
import Verif.Enc.ShapeProps

/-!
# Values of no type of their own: what an `any` gets, and what `Digits` may hold

A target of type `any` gets the native value of a node (enc/enc.go L13; enc/list.go L42-45, enc/map.go L118-123, enc/numeric.go L154-156, enc/scalar.go L31-33, enc/time.go L58-65, L88-95).
enc/numeric.go L114 says which: "builtin json convert to float64 when unmarshalling into any, we should do the same".

`Digits` is a string (enc/numeric.go L65) and is written as it is (L120). Enc/Json.lean takes only digits that are numbers; here they are any text.
-/
set_option autoImplicit false
namespace Verif.Enc.Native
open Verif.Strconv Verif.Enc

variable {X : Ext}

/-! ### the spec: what `encoding/json` stores in an `any` -/

mutual
/-- The value of a document for `json.Unmarshal` into an `any`; `none` is an error: a number no float64 can hold. -/
def builtin : Node X → Option (Any X)
  | .nil => some .nil
  | .bool b => some (.bool b)
  | .str s => some (.str s)
  | .digits s => (X.fParse s).map .f64
  | .list l => (builtinList l).map .list
  | .map m => (builtinMap m).map fun r => .map (ofEntries r)
  | _ => none
def builtinList : List (Node X) → Option (List (Any X))
  | [] => some []
  | n :: l => match builtin n, builtinList l with
    | some a, some r => some (a :: r)
    | _, _ => none
def builtinMap : List (Str × Node X) → Option (List (Str × Any X))
  | [] => some []
  | (k, n) :: l => match builtin n, builtinMap l with
    | some a, some r => some ((k, a) :: r)
    | _, _ => none
end

mutual
theorem builtin_native : ∀ (n : Node X) (a : Any X), builtin n = some a → n.native = a
  | .nil, a, h => by simp only [builtin, Option.some.injEq] at h; subst h; rfl
  | .bool b, a, h => by simp only [builtin, Option.some.injEq] at h; subst h; rfl
  | .str s, a, h => by simp only [builtin, Option.some.injEq] at h; subst h; rfl
  | .digits s, a, h => by
    simp only [builtin, Option.map_eq_some_iff] at h
    obtain ⟨f, hf, rfl⟩ := h
    simp only [Node.native, hf]
  | .list l, a, h => by
    simp only [builtin, Option.map_eq_some_iff] at h
    obtain ⟨r, hr, rfl⟩ := h
    simp only [Node.native, builtinList_native l r hr]
  | .map m, a, h => by
    simp only [builtin, Option.map_eq_some_iff] at h
    obtain ⟨r, hr, rfl⟩ := h
    simp only [Node.native, builtinMap_native m r hr]
  | .int i, a, h => by simp [builtin] at h
  | .float f, a, h => by simp [builtin] at h
  | .pairs l, a, h => by simp [builtin] at h
  | .time t, a, h => by simp [builtin] at h
  | .dur d, a, h => by simp [builtin] at h
theorem builtinList_native : ∀ (l : List (Node X)) (r : List (Any X)), builtinList l = some r → Node.listNative l = r
  | [], r, h => by simp only [builtinList, Option.some.injEq] at h; subst h; rfl
  | n :: l, r, h => by
    simp only [builtinList] at h
    split at h
    · rename_i a q ha hq
      simp only [Option.some.injEq] at h; subst h
      simp only [Node.listNative, builtin_native n a ha, builtinList_native l q hq]
    · cases h
theorem builtinMap_native : ∀ (l : List (Str × Node X)) (r : List (Str × Any X)), builtinMap l = some r → Node.mapNative l = r
  | [], r, h => by simp only [builtinMap, Option.some.injEq] at h; subst h; rfl
  | (k, n) :: l, r, h => by
    simp only [builtinMap] at h
    split at h
    · rename_i a q ha hq
      simp only [Option.some.injEq] at h; subst h
      simp only [Node.mapNative, builtin_native n a ha, builtinMap_native l q hq]
    · cases h
end

theorem into_plain (n : Node X) (h1 : ∀ t, n ≠ .time t) (h2 : ∀ d, n ≠ .dur d) : n.intoAny = n.native := by
  cases n <;> first | rfl | (exact absurd rfl (h1 _)) | (exact absurd rfl (h2 _))

/-- C173: what `encoding/json` stores in an `any`, this does; whatever the text, as long as its numbers are in the range of float64. -/
theorem C173_builtin_partial (H : Handler X) (O : Order) (s : Str) (n : Node X) (hs : Means s n) (a : Any X) (ha : builtin n = some a) (old : Any X) :
    unmarshalJSON H O .any s old = .done a := by
  unfold unmarshalJSON
  rw [(C114_exact s n).2 hs]
  show Out.done n.intoAny = _
  rw [into_plain n (by rintro t rfl; cases ha) (by rintro t rfl; cases ha), builtin_native n a ha]
  rfl

/-- C173, violated: a document with a number out of range is accepted, and the number is a string; `encoding/json` refuses it. -/
theorem C173_range_violated (H : Handler X) (O : Order) (old : Any X) :
    (∀ (s : Str) (n : Node X), Means s n → builtin n = none → (unmarshalJSON H O .any s old).st = .ok) ∧
    (∀ t : Str, JNum t → X.fParse t = none → builtin (X := X) (.digits t) = none ∧ unmarshalJSON H O .any t old = .done (Any.str t)) := by
  constructor
  · intro s n hs _
    unfold unmarshalJSON
    rw [(C114_exact s n).2 hs]; rfl
  · intro t ht hf
    refine ⟨by simp [builtin, hf], ?_⟩
    have hd := (C114_document (X := X) [] t [] (.digits t) (by intro c h; cases h) (by intro c h; cases h) (.num _ t ht)).1
    simp only [List.nil_append, List.append_nil] at hd
    unfold unmarshalJSON
    rw [hd]
    show Out.done (Node.native (Node.digits t)) = _
    simp only [Node.native, hf]; rfl

theorem listNative_eq (l : List (Node X)) : Node.listNative l = l.map Node.native := by
  induction l with
  | nil => rfl
  | cons n l ih => simp [Node.listNative, ih]

/-- C173: the value of a part of a list or an object is what the part alone would give, unless it is a time or a duration. -/
theorem C173_place_partial (H : Handler X) (O : Order) (old : Any X) :
    (∀ l : List (Node X), (∀ n ∈ l, (∀ t, n ≠ .time t) ∧ (∀ d, n ≠ .dur d)) →
      unmarshal H O .any (.list l) old = .done (Any.list (l.map fun n => (unmarshal H O .any n Any.nil).val))) ∧
    (∀ m : List (Str × Node X), SortedKeys m → (∀ e ∈ m, (∀ t, e.2 ≠ .time t) ∧ (∀ d, e.2 ≠ .dur d)) →
      unmarshal H O .any (.map m) old = .done (Any.map (m.map fun e => (e.1, (unmarshal H O .any e.2 Any.nil).val)))) := by
  constructor
  · intro l hl
    show Out.done (Node.intoAny _) = _
    simp only [Node.intoAny, Node.native, listNative_eq]
    refine congrArg (fun x => Out.done (Any.list x)) (List.map_congr_left fun n hn => ?_)
    exact (into_plain n (hl n hn).1 (hl n hn).2).symm
  · intro m hm hl
    show Out.done (Node.intoAny _) = _
    simp only [Node.intoAny, Node.native, mapNative_eq]
    rw [← ofEntries_map (g := Node.native), ofEntries_sorted m hm]
    refine congrArg (fun x => Out.done (Any.map x)) (List.map_congr_left fun e he => ?_)
    exact congrArg (Prod.mk e.1) (into_plain e.2 (hl e he).1 (hl e he).2).symm

/-- C173, violated: a time node in an `any` is an `enc.Time` by itself and in an `[]any`, and a `time.Time` within a list in an `any`; durations too. -/
theorem C173_place_violated (H : Handler X) (O : Order) (t : X.T) (d : Int) (old : Any X) :
    unmarshal H O .any (.time t) old = .done (Any.encTime t) ∧ unmarshal H O .any (.list [.time t]) old = .done (Any.list [.time t]) ∧
    unmarshal H O (.slice .any) (.list [.time t]) none = .done (some [Any.encTime t]) ∧
    unmarshal H O .any (.dur d) old = .done (Any.encDur d) ∧ unmarshal H O .any (.list [.dur d]) old = .done (Any.list [.dur d]) ∧
    unmarshal H O (.slice .any) (.list [.dur d]) none = .done (some [Any.encDur d]) := ⟨rfl, rfl, rfl, rfl, rfl, rfl⟩

/-! ### `Digits` with any text -/

mutual
/-- The text `json.Marshal` makes, `none` for an error: every `MarshalJSON` method (`Digits`: enc/numeric.go L120, `Map`: enc/map.go L26-31, `Pairs`: enc/pairs.go L50-63) returns bytes that
are checked to be a document, and copied without white space. Others as in Enc/Json.lean. -/
def textR : Node X → Option Str
  | .digits s => viaMarshalJSON X s
  | .float f => X.fJson f
  | .list l => (textsR l).map fun t => '[' :: (t ++ [']'])
  | .map m => (membersR m).bind fun t => viaMarshalJSON X ('{' :: (t ++ ['}']))
  | .pairs l => (pairsR l).bind fun t => viaMarshalJSON X ('{' :: (t ++ ['}']))
  | n => some n.text
/-- enc/list.go L11, enc/json.go L58. -/
def textsR : List (Node X) → Option Str
  | [] => some []
  | [n] => textR n
  | n :: l => match textR n, textsR l with
    | some t, some r => some (t ++ ',' :: r)
    | _, _ => none
/-- enc/map.go L26-31. -/
def membersR : List (Str × Node X) → Option Str
  | [] => some []
  | [(k, n)] => (textR n).map fun t => jsonStr k ++ ':' :: t
  | (k, n) :: l => match textR n, membersR l with
    | some t, some r => some (jsonStr k ++ ':' :: (t ++ ',' :: r))
    | _, _ => none
/-- With the white space it writes. enc/pairs.go L50-63. -/
def pairsR : List ((Str × Str) × Node X) → Option Str
  | [] => some []
  | [((_, k), n)] => (textR n).map fun t => jsonStr k ++ ':' :: ' ' :: t
  | ((_, k), n) :: l => match textR n, pairsR l with
    | some t, some r => some (jsonStr k ++ ':' :: ' ' :: (t ++ ',' :: ' ' :: r))
    | _, _ => none
end

/-- `JSON{}.Encode`. enc/json.go L50-64. -/
def encodeR (n : Node X) : Go Str := match textR n with
  | some t => .ok t
  | none => .error .explicit

mutual
/-- What a node whose digits are documents stands for, nested at most so deep: digits for what they say, everything else as in `Node.norm`. -/
inductive Stands : Nat → Node X → Node X → Prop
  | digits (d : Nat) (s : Str) (m : Node X) : Doc d s m → Stands d (.digits s) m
  | nil (d : Nat) : Stands d .nil .nil
  | bool (d : Nat) (b : Bool) : Stands d (.bool b) (.bool b)
  | str (d : Nat) (s : Str) : Stands d (.str s) (.str s)
  | int (d : Nat) (i : Int) : Stands d (.int i) (.digits (fmtInt i))
  | float (d : Nat) (f : X.F) (t : Str) : X.fJson f = some t → Stands d (.float f) (.digits t)
  | time (d : Nat) (t : X.T) : Stands d (.time t) (.str (X.tFmt t))
  | dur (d : Nat) (i : Int) : Stands d (.dur i) (.str (if i = 0 then [] else X.dStr i))
  | list (d : Nat) (l l' : List (Node X)) : StandsL d l l' → Stands (d + 1) (.list l) (.list l')
  | map (d : Nat) (m m' : List (Str × Node X)) : StandsM d m m' → Stands (d + 1) (.map m) (.map (ofEntries m'))
  | pairs (d : Nat) (l : List ((Str × Str) × Node X)) (m' : List (Str × Node X)) : StandsP d l m' → Stands (d + 1) (.pairs l) (.map (ofEntries m'))
inductive StandsL : Nat → List (Node X) → List (Node X) → Prop
  | nil (d : Nat) : StandsL d [] []
  | cons (d : Nat) (n m : Node X) (l l' : List (Node X)) : Stands d n m → StandsL d l l' → StandsL d (n :: l) (m :: l')
inductive StandsM : Nat → List (Str × Node X) → List (Str × Node X) → Prop
  | nil (d : Nat) : StandsM d [] []
  | cons (d : Nat) (k : Str) (n m : Node X) (l l' : List (Str × Node X)) : Stands d n m → StandsM d l l' → StandsM d ((k, n) :: l) ((k, m) :: l')
inductive StandsP : Nat → List ((Str × Str) × Node X) → List (Str × Node X) → Prop
  | nil (d : Nat) : StandsP d [] []
  | cons (d : Nat) (g k : Str) (n m : Node X) (l : List ((Str × Str) × Node X)) (l' : List (Str × Node X)) : Stands d n m → StandsP d l l' →
      StandsP d (((g, k), n) :: l) ((k, m) :: l')
end

theorem jstr_json (s : Str) : JStr (s.flatMap escJson) s := by
  obtain ⟨t, h1, h2⟩ := parseStr_sound _ (s.flatMap escJson ++ '"' :: []) s [] (Nat.le_refl _) (parseStr_jsonStr s [])
  have : s.flatMap escJson = t := List.append_cancel_right h1
  rw [this]; exact h2

theorem jval_str (d : Nat) (s : Str) : JVal (X := X) d (jsonStr s) (.str s) := .str d _ s (jstr_json s)

theorem jnum_of (t : Str) (h : isNumber t = true) : JNum t := by
  have h : parseNumber t = some (t, []) := by simpa [isNumber] using h
  exact (parseNumber_sound t t [] h).2

theorem blank_one : Blank [' '] := by
  intro c h
  rw [List.mem_singleton.1 h]; decide

theorem doc_val {d : Nat} {t : Str} {n : Node X} (h : JVal d t n) : Doc d t n := ⟨[], t, [], by simp, blank_nil, blank_nil, h⟩

mutual
theorem text_ok (hX : Laws X) : ∀ {d : Nat} {n m : Node X}, Stands d n m → d ≤ maxDepth → ∃ t, textR n = some t ∧ JVal d t m
  | _, _, _, .digits d s m h, hd => by
    obtain ⟨t, h1, h2⟩ := viaMarshalJSON_doc d hd s m h
    exact ⟨t, by simp only [textR, h1], h2⟩
  | _, _, _, .nil d, _ => ⟨_, rfl, .null d⟩
  | _, _, _, .bool d true, _ => ⟨_, rfl, .tru d⟩
  | _, _, _, .bool d false, _ => ⟨_, rfl, .fls d⟩
  | _, _, _, .str d s, _ => ⟨_, rfl, jval_str d s⟩
  | _, _, _, .int d i, _ => ⟨_, rfl, .num d _ (jnum_of _ (isNumber_fmtInt i))⟩
  | _, _, _, .float d f t h, _ => ⟨t, by simp only [textR, h], .num d t (jnum_of t (hX.fJson_number f t h))⟩
  | _, _, _, .time d t, _ => ⟨_, rfl, jval_str d _⟩
  | _, _, _, .dur d i, _ => by
    refine ⟨_, rfl, ?_⟩
    simp only [Node.text]
    split <;> exact jval_str d _
  | _, _, _, .list d l l' h, hd => by
    obtain ⟨t, h1, h2⟩ := texts_ok hX h (by omega)
    refine ⟨'[' :: (t ++ [']']), by simp only [textR, h1, Option.map_some], ?_⟩
    rcases h2 with ⟨rfl, rfl⟩ | h2
    · exact .noElems d [] blank_nil
    · exact .elems d t l' h2
  | _, _, _, .map d m m' h, hd => by
    obtain ⟨t, h1, h2⟩ := members_ok hX h (by omega)
    have : JVal (d + 1) ('{' :: (t ++ ['}'])) (.map (ofEntries m')) := by
      rcases h2 with ⟨rfl, rfl⟩ | h2
      · exact .noMembers d [] blank_nil
      · exact .members d t m' h2
    obtain ⟨u, h3, h4⟩ := viaMarshalJSON_doc (d + 1) hd _ _ (doc_val this)
    exact ⟨u, by simp only [textR, h1, Option.bind_some, h3], h4⟩
  | _, _, _, .pairs d l m' h, hd => by
    obtain ⟨t, h1, h2⟩ := pairs_ok hX h (by omega)
    have : JVal (d + 1) ('{' :: (t ++ ['}'])) (.map (ofEntries m')) := by
      rcases h2 with ⟨rfl, rfl⟩ | h2
      · exact .noMembers d [] blank_nil
      · have := h2 [] blank_nil
        rw [List.nil_append] at this
        exact .members d t m' this
    obtain ⟨u, h3, h4⟩ := viaMarshalJSON_doc (d + 1) hd _ _ (doc_val this)
    exact ⟨u, by simp only [textR, h1, Option.bind_some, h3], h4⟩
theorem texts_ok (hX : Laws X) : ∀ {d : Nat} {l l' : List (Node X)}, StandsL d l l' → d ≤ maxDepth → ∃ t, textsR l = some t ∧ (t = [] ∧ l' = [] ∨ JElems d t l')
  | _, _, _, .nil d, _ => ⟨[], rfl, .inl ⟨rfl, rfl⟩⟩
  | _, _, _, .cons d n m [] _ hn (.nil _), hd => by
    obtain ⟨t, h1, h2⟩ := text_ok hX hn hd
    refine ⟨t, by simp only [textsR, h1], .inr ?_⟩
    have := JElems.one d [] t [] m blank_nil h2 blank_nil
    simpa using this
  | _, _, _, .cons d n m (n' :: l) (m' :: l') hn hl, hd => by
    obtain ⟨t, h1, h2⟩ := text_ok hX hn hd
    obtain ⟨r, h3, h4⟩ := texts_ok hX hl hd
    refine ⟨t ++ ',' :: r, by simp only [textsR, h1, h3], .inr ?_⟩
    rcases h4 with ⟨_, h⟩ | h4
    · cases h
    · have := JElems.more d [] t [] r m (m' :: l') blank_nil h2 blank_nil h4
      simpa using this
theorem members_ok (hX : Laws X) : ∀ {d : Nat} {l l' : List (Str × Node X)}, StandsM d l l' → d ≤ maxDepth → ∃ t, membersR l = some t ∧ (t = [] ∧ l' = [] ∨ JMembers d t l')
  | _, _, _, .nil d, _ => ⟨[], rfl, .inl ⟨rfl, rfl⟩⟩
  | _, _, _, .cons d k n m [] _ hn (.nil _), hd => by
    obtain ⟨t, h1, h2⟩ := text_ok hX hn hd
    refine ⟨jsonStr k ++ ':' :: t, by simp only [membersR, h1, Option.map_some], .inr ?_⟩
    have := JMembers.one d [] _ k [] [] t [] m blank_nil (jstr_json k) blank_nil blank_nil h2 blank_nil
    simpa [jsonStr] using this
  | _, _, _, .cons d k n m (n' :: l) (m' :: l') hn hl, hd => by
    obtain ⟨t, h1, h2⟩ := text_ok hX hn hd
    obtain ⟨r, h3, h4⟩ := members_ok hX hl hd
    refine ⟨jsonStr k ++ ':' :: (t ++ ',' :: r), by simp only [membersR, h1, h3], .inr ?_⟩
    rcases h4 with ⟨_, h⟩ | h4
    · cases h
    · have := JMembers.more d [] _ k [] [] t [] r m (m' :: l') blank_nil (jstr_json k) blank_nil blank_nil h2 blank_nil h4
      simpa [jsonStr] using this
theorem pairs_ok (hX : Laws X) : ∀ {d : Nat} {l : List ((Str × Str) × Node X)} {l' : List (Str × Node X)}, StandsP d l l' → d ≤ maxDepth →
    ∃ t, pairsR l = some t ∧ (t = [] ∧ l' = [] ∨ ∀ w, Blank w → JMembers d (w ++ t) l')
  | _, _, _, .nil d, _ => ⟨[], rfl, .inl ⟨rfl, rfl⟩⟩
  | _, _, _, .cons d g k n m [] _ hn (.nil _), hd => by
    obtain ⟨t, h1, h2⟩ := text_ok hX hn hd
    refine ⟨jsonStr k ++ ':' :: ' ' :: t, by simp only [pairsR, h1, Option.map_some], .inr fun w hw => ?_⟩
    have := JMembers.one d w _ k [] [' '] t [] m hw (jstr_json k) blank_nil blank_one h2 blank_nil
    simpa [jsonStr] using this
  | _, _, _, .cons d g k n m (n' :: l) (m' :: l') hn hl, hd => by
    obtain ⟨t, h1, h2⟩ := text_ok hX hn hd
    obtain ⟨r, h3, h4⟩ := pairs_ok hX hl hd
    refine ⟨jsonStr k ++ ':' :: ' ' :: (t ++ ',' :: ' ' :: r), by simp only [pairsR, h1, h3], .inr fun w hw => ?_⟩
    rcases h4 with ⟨_, h⟩ | h4
    · cases h
    · have := JMembers.more d w _ k [] [' '] t [] ([' '] ++ r) m (m' :: l') hw (jstr_json k) blank_nil blank_one h2 blank_nil (h4 [' '] blank_one)
      simpa [jsonStr] using this
end

/-- C173: whatever texts the `Digits` in a node hold, if they are documents then the encoded node reads back as the node with those documents in their places. -/
theorem C173_digits (hX : Laws X) (n m : Node X) (h : Stands maxDepth n m) : ∃ t, encodeR n = .ok t ∧ decode t = some (some m) := by
  obtain ⟨t, h1, h2⟩ := text_ok hX h (Nat.le_refl _)
  refine ⟨t, by simp only [encodeR, h1], ?_⟩
  have := (C114_document [] t [] m blank_nil blank_nil h2).1
  simpa using this

/-- C173, violated: `Digits` are not always a number: with any document in it, it is written without complaint and read back as that document; a text that is none panics. -/
theorem C173_digits_violated (hX : Laws X) :
    (∀ (s : Str) (m : Node X), Doc maxDepth s m → ∃ t, encodeR (X := X) (.digits s) = .ok t ∧ decode t = some (some m)) ∧
    (∀ s : Str, (∀ m : Node X, ¬ Doc maxDepth s m) → encodeR (X := X) (.digits s) = .error .explicit) := by
  refine ⟨fun s m h => C173_digits hX _ m (.digits _ s m h), fun s h => ?_⟩
  have := (viaMarshalJSON_none (X := X) s).2 h
  simp only [encodeR, textR, this]

mutual
theorem stands_norm : ∀ (n : Node X) (d : Nat), n.WF → n.encodable = true → n.depth ≤ d → Stands d n n.norm
  | .nil, d, _, _, _ => .nil d
  | .bool b, d, _, _, _ => .bool d b
  | .str s, d, _, _, _ => .str d s
  | .int i, d, _, _, _ => .int d i
  | .float f, d, _, he, _ => by
    simp only [Node.encodable, Option.isSome_iff_exists] at he
    obtain ⟨t, ht⟩ := he
    simp only [Node.norm, ht, Option.getD_some]
    exact .float d f t ht
  | .digits s, d, _, he, _ => .digits d s _ (doc_val (.num d s (jnum_of s he)))
  | .time t, d, _, _, _ => .time d t
  | .dur i, d, _, _, _ => .dur d i
  | .list l, 0, _, _, hd => by simp [Node.depth] at hd
  | .list l, d + 1, hw, he, hd => .list d l _ (standsL_norm l d hw he (by simpa [Node.depth] using hd))
  | .map m, 0, _, _, hd => by simp [Node.depth] at hd
  | .map m, d + 1, hw, he, hd => by
    simp only [Node.encodable, Bool.and_eq_true] at he
    have h := Stands.map d m _ (standsM_norm m d hw.2 he.1 (by simpa [Node.depth] using hd))
    have hs : ofEntries (Node.mapNorm m) = Node.mapNorm m := by
      have hm : ∀ m : List (Str × Node X), Node.mapNorm m = m.map fun e => (e.1, e.2.norm) := by
        intro m; induction m with
        | nil => rfl
        | cons e m ih => obtain ⟨k, n⟩ := e; simp [Node.mapNorm, ih]
      rw [hm, ← ofEntries_map (g := Node.norm), ofEntries_sorted m hw.1]
    rw [hs] at h
    exact h
  | .pairs l, 0, _, _, hd => by simp [Node.depth] at hd
  | .pairs l, d + 1, hw, he, hd => by
    simp only [Node.encodable, Bool.and_eq_true] at he
    exact .pairs d l _ (standsP_norm l d hw he.1 (by simpa [Node.depth] using hd))
theorem standsL_norm : ∀ (l : List (Node X)) (d : Nat), Node.listWF l → Node.listEncodable l = true → Node.listDepth l ≤ d → StandsL d l (Node.listNorm l)
  | [], d, _, _, _ => .nil d
  | n :: l, d, hw, he, hd => by
    simp only [Node.listEncodable, Bool.and_eq_true] at he
    simp only [Node.listDepth] at hd
    exact .cons d n _ l _ (stands_norm n d hw.1 he.1 (by omega)) (standsL_norm l d hw.2 he.2 (by omega))
theorem standsM_norm : ∀ (l : List (Str × Node X)) (d : Nat), Node.mapWF l → Node.mapEncodable l = true → Node.mapDepth l ≤ d → StandsM d l (Node.mapNorm l)
  | [], d, _, _, _ => .nil d
  | (k, n) :: l, d, hw, he, hd => by
    simp only [Node.mapEncodable, Bool.and_eq_true] at he
    simp only [Node.mapDepth] at hd
    exact .cons d k n _ l _ (stands_norm n d hw.1 he.1 (by omega)) (standsM_norm l d hw.2 he.2 (by omega))
theorem standsP_norm : ∀ (l : List ((Str × Str) × Node X)) (d : Nat), Node.pairsWF l → Node.pairsEncodable l = true → Node.pairsDepth l ≤ d → StandsP d l (Node.pairsNorm l)
  | [], d, _, _, _ => .nil d
  | ((g, k), n) :: l, d, hw, he, hd => by
    simp only [Node.pairsEncodable, Bool.and_eq_true] at he
    simp only [Node.pairsDepth] at hd
    exact .cons d g k n _ l _ (stands_norm n d hw.1 he.1 (by omega)) (standsP_norm l d hw.2 he.2 (by omega))
end

/-- C173: if the digits are numbers, this is the encoder of C39. -/
theorem C173_numbers (hX : Laws X) (n : Node X) (hw : n.WF) (hd : n.depth ≤ maxDepth) (t : Str) (he : encode n = .ok t) :
    ∃ t', encodeR n = .ok t' ∧ decode (X := X) t' = decode t := by
  have h := C39_round_trip hX n hw t he hd
  rw [h]
  unfold encode at he
  split at he
  · rename_i hc
    exact C173_digits hX n n.norm (stands_norm n maxDepth hw hc hd)
  · cases he

/-- A number no float64 can hold is a string in an `any`, also inside; a text after the first value makes no difference. -/
example : unmarshalJSON ⟨none⟩ ⟨fun l => l, fun l => List.Perm.refl l⟩ .any (lit "[1e999, 0] x") (Any.nil : Any XT) = .done (Any.list [.str (lit "1e999"), .f64 XT.fZero]) ∧
    builtin (X := XT) (.list [.digits (lit "1e999"), .digits (lit "0")]) = none ∧ builtin (X := XT) (.list [.digits (lit "0")]) = some (.list [.f64 XT.fZero]) := by
  have hd : decode (X := XT) (lit "[1e999, 0] x") = some (some (.list [.digits (lit "1e999"), .digits (lit "0")])) := by decide +kernel
  have h1 : XT.fParse (lit "1e999") = none := by decide +kernel
  have h2 : XT.fParse (lit "0") = some XT.fZero := by decide +kernel
  refine ⟨?_, ?_, ?_⟩
  · unfold unmarshalJSON
    rw [hd]
    show Out.done (Node.native (X := XT) (.list [.digits (lit "1e999"), .digits (lit "0")])) = _
    simp only [Node.native, Node.listNative, h1, h2]; rfl
  · simp only [builtin, builtinList, h1, h2, Option.map_none]
  · simp only [builtin, builtinList, h2, Option.map_some]

/-- A digits node that closes its own object does not get out of it; one that is an object becomes one. -/
example : encodeR (X := XJ) (.map [(lit "a", .digits (lit "1,\"b\":2"))]) = .error .explicit ∧
    encodeR (X := XJ) (.map [(lit "a", .digits (lit " {\"b\": 2}"))]) = .ok (lit "{\"a\":{\"b\":2}}") ∧
    encodeR (X := XJ) (.pairs [((lit "A", lit "a"), .digits (lit "[]")), ((lit "B", lit "b"), .int 1)]) = .ok (lit "{\"a\":[],\"b\":1}") := by decide +kernel

end Verif.Enc.Native

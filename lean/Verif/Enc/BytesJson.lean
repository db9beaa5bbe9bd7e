import Verif.Enc.Utf8
import Verif.Enc.Native
import Verif.Http.Spec
import Verif.Prom.Props
/-!
# Strings that are not UTF-8 on the wire (enc/json.go L49-86, enc/map.go L26-31) (C176)

`BNode` is a node whose strings and keys are any bytes, with the kinds that JSON has (the others are written as one of these, see Json.lean; a number is its text). `json.Marshal`
writes the escape of U+FFFD for an invalid byte, and the members of a map sorted by the bytes of their keys. `json.Decoder` reads an invalid byte in a string as U+FFFD.
-/
set_option autoImplicit false
namespace Verif.Enc.Wire8
open Verif.Strconv Verif.Enc Verif.Utf8 Verif.Prom

variable {X : Ext}

/-- A node with byte strings; the members of a map are those of a Go map, in the order of their keys. enc/map.go L14. -/
inductive BNode where
  | nil
  | bool (b : Bool)
  | num (s : Str)
  | str (b : Bytes)
  | list (l : List BNode)
  | map (m : List (Bytes × BNode))

/-- `a < b` for Go strings: by bytes. How `json.Marshal` sorts the keys of a map, enc/map.go L30. -/
def bytesLt : Bytes → Bytes → Bool
  | [], [] => false
  | [], _ :: _ => true
  | _ :: _, [] => false
  | a :: as, b :: bs => if a.toNat < b.toNat then true else if a.toNat = b.toNat then bytesLt as bs else false

/-- One element of a JSON string: `encoding/json.appendString`, for enc/json.go L58. -/
def escElt : Elt → Str
  | .rune c => escJson c
  | .bad _ _ _ => lit "\\ufffd"

/-- What is between the quotes. enc/json.go L58. -/
def inner (b : Bytes) : Str := (elts b).flatMap escElt

mutual
/-- The JSON text of a node. enc/json.go L49-64, enc/map.go L26-31. -/
def BNode.text : BNode → Str
  | .nil => lit "null"
  | .bool true => lit "true"
  | .bool false => lit "false"
  | .num s => s
  | .str b => '"' :: (inner b ++ ['"'])
  | .list l => '[' :: (listText l ++ [']'])
  | .map m => '{' :: (mapText m ++ ['}'])
/-- Its elements. enc/json.go L58. -/
def listText : List BNode → Str
  | [] => []
  | [n] => n.text
  | n :: l => n.text ++ ',' :: listText l
/-- Its members. enc/map.go L26-31. -/
def mapText : List (Bytes × BNode) → Str
  | [] => []
  | [(k, n)] => '"' :: (inner k ++ '"' :: ':' :: n.text)
  | (k, n) :: m => '"' :: (inner k ++ '"' :: ':' :: (n.text ++ ',' :: mapText m))
end

/-- `JSON.Encode`: the bytes of the text. enc/json.go L49-64. -/
def encodeBytes (n : BNode) : Bytes := utf8 n.text

/-- `JSON.Decode` of bytes. enc/json.go L74-86. -/
def decodeBytes (b : Bytes) : Option (Option (Node X)) := decode (runes b)

/-! ### specification -/

mutual
/-- What a node is read as: a text for every string, and the last one of the members whose keys are the same text. -/
def BNode.read : BNode → Node X
  | .nil => .nil
  | .bool b => .bool b
  | .num s => .digits s
  | .str b => .str (runes b)
  | .list l => .list (readList l)
  | .map m => .map (ofEntries (readMap m))
def readList : List BNode → List (Node X)
  | [] => []
  | n :: l => n.read :: readList l
def readMap : List (Bytes × BNode) → List (Str × Node X)
  | [] => []
  | (k, n) :: m => (runes k, n.read) :: readMap m
end

mutual
/-- The nodes that can be written: numbers are JSON numbers, keys are in order, and it is nested at most `d` deep. -/
def BNode.Good : Nat → BNode → Prop
  | _, .num s => isNumber s = true
  | d + 1, .list l => GoodList d l
  | d + 1, .map m => m.Pairwise (fun a b => bytesLt a.1 b.1 = true) ∧ GoodMap d m
  | 0, .list _ | 0, .map _ => False
  | _, _ => True
def GoodList : Nat → List BNode → Prop
  | _, [] => True
  | d, n :: l => n.Good d ∧ GoodList d l
def GoodMap : Nat → List (Bytes × BNode) → Prop
  | _, [] => True
  | d, (_, n) :: m => n.Good d ∧ GoodMap d m
end

mutual
/-- All its strings and keys are UTF-8. -/
def BNode.Valid : BNode → Prop
  | .str b => Utf8.valid b = true
  | .list l => ValidList l
  | .map m => ValidMap m
  | _ => True
def ValidList : List BNode → Prop
  | [] => True
  | n :: l => n.Valid ∧ ValidList l
def ValidMap : List (Bytes × BNode) → Prop
  | [] => True
  | (k, n) :: m => Utf8.valid k = true ∧ n.Valid ∧ ValidMap m
end

mutual
/-- The bytes a node that was read has in memory. -/
def ofNode : Node X → Option BNode
  | .nil => some .nil
  | .bool b => some (.bool b)
  | .digits s => some (.num s)
  | .str s => some (.str (utf8 s))
  | .list l => (ofNodes l).map .list
  | .map m => (ofMembers m).map .map
  | _ => none
def ofNodes : List (Node X) → Option (List BNode)
  | [] => some []
  | n :: l => match ofNode n, ofNodes l with
    | some n, some l => some (n :: l)
    | _, _ => none
def ofMembers : List (Str × Node X) → Option (List (Bytes × BNode))
  | [] => some []
  | (k, n) :: m => match ofNode n, ofMembers m with
    | some n, some m => some ((utf8 k, n) :: m)
    | _, _ => none
end

/-! ### the order of keys -/

theorem bytesLt_asymm : ∀ a b : Bytes, bytesLt a b = true → bytesLt b a = false
  | [], [], h => by cases h
  | [], _ :: _, _ => rfl
  | _ :: _, [], h => by cases h
  | a :: as, b :: bs, h => by
    unfold bytesLt at h ⊢
    by_cases h1 : a.toNat < b.toNat
    · rw [if_neg (by omega), if_neg (by omega)]
    · rw [if_neg h1] at h
      by_cases h2 : a.toNat = b.toNat
      · rw [if_pos h2] at h
        rw [if_neg (by omega), if_pos h2.symm]
        exact bytesLt_asymm as bs h
      · rw [if_neg h2] at h; cases h

theorem bytesLt_same (a : Bytes) (r r' : Bytes) : bytesLt (a ++ r) (a ++ r') = bytesLt r r' := by
  induction a with
  | nil => rfl
  | cons b a ih => simp only [List.cons_append, bytesLt, Nat.lt_irrefl, if_false, if_true, ih]

theorem bytesLt_ofNat (m n : Nat) (l l' : Bytes) (hm : m < 256) (hn : n < 256) :
    bytesLt (UInt8.ofNat m :: l) (UInt8.ofNat n :: l') = if m < n then true else if m = n then bytesLt l l' else false := by
  simp only [bytesLt, byte_toNat m hm, byte_toNat n hn]

theorem bytesLt_char (c d : Char) (h : c.toNat < d.toNat) (r r' : Bytes) : bytesLt (String.utf8EncodeChar c ++ r) (String.utf8EncodeChar d ++ r') = true := by
  have hc := char_valid c
  have hd := char_valid d
  rw [encode_eq, encode_eq]
  generalize c.toNat = m at *
  generalize d.toNat = n at *
  by_cases h1 : m ≤ 0x7f <;> by_cases h2 : m ≤ 0x7ff <;> by_cases h3 : m ≤ 0xffff <;> by_cases k1 : n ≤ 0x7f <;> by_cases k2 : n ≤ 0x7ff <;> by_cases k3 : n ≤ 0xffff <;>
    (first | (exfalso; omega) | skip) <;>
    simp only [h1, h2, h3, k1, k2, k3, if_true, if_false, List.cons_append, List.nil_append] <;>
    simp (disch := omega) only [bytesLt_ofNat] <;>
    (repeat' split) <;> first | rfl | (exfalso; omega)

/-- C176: UTF-8 keeps the order, so that a map is written in the order of its keys as texts: the one of Json.lean. -/
theorem C176_order : ∀ s t : Str, bytesLt (utf8 s) (utf8 t) = strLt s t
  | [], [] => rfl
  | [], c :: t => by
    obtain ⟨b, u, h, -⟩ := decode_encode c []
    show bytesLt [] (String.utf8EncodeChar c ++ utf8 t) = true
    rw [h]; rfl
  | c :: s, [] => by
    obtain ⟨b, u, h, -⟩ := decode_encode c []
    show bytesLt (String.utf8EncodeChar c ++ utf8 s) [] = false
    rw [h]; rfl
  | c :: s, d :: t => by
    show bytesLt (String.utf8EncodeChar c ++ utf8 s) (String.utf8EncodeChar d ++ utf8 t) = _
    unfold strLt
    by_cases h : c.toNat < d.toNat
    · rw [if_pos h]; exact bytesLt_char c d h _ _
    · rw [if_neg h]
      by_cases he : c = d
      · subst he
        rw [if_pos rfl, bytesLt_same]; exact C176_order s t
      · rw [if_neg he]
        refine bytesLt_asymm _ _ (bytesLt_char d c ?_ _ _)
        have : c.toNat ≠ d.toNat := fun h => he (Char.ext (UInt32.toNat_inj.1 h))
        omega

/-! ### reading what was written -/

theorem unit_fffd : Unit4 'f' 'f' 'f' 'd' 0xFFFD := ⟨15, 15, 15, 13, by decide, by decide, by decide, by decide, rfl⟩

theorem jstr_esc (c : Char) (t s : Str) (h : JStr t s) : JStr (escJson c ++ t) (c :: s) := by
  obtain ⟨u, h1, h2⟩ := parseStr_sound _ (escJson c ++ (t ++ '"' :: [])) (c :: s) [] (Nat.le_refl _) (by rw [parseStr_esc, parseStr_complete t s h []]; rfl)
  have : escJson c ++ t = u := by rw [← List.append_assoc] at h1; exact List.append_cancel_right h1
  rw [this]; exact h2

/-- The text `json.Marshal` writes for bytes stands for what they are as text. -/
theorem jstr_inner (b : Bytes) : JStr (inner b) (runes b) := by
  unfold inner runes
  generalize elts b = g
  induction g with
  | nil => exact .nil
  | cons e g ih =>
    rw [List.flatMap_cons, List.map_cons]
    cases e with
    | bad b _ _ =>
      show JStr ('\\' :: 'u' :: 'f' :: 'f' :: 'f' :: 'd' :: _) _
      exact .unit _ _ _ _ _ _ _ unit_fffd (by unfold High; omega) (by unfold Low; omega) ih
    | rune c => exact jstr_esc c _ _ ih

mutual
theorem jval_text : ∀ (d : Nat) (n : BNode), n.Good d → JVal (X := X) d n.text n.read
  | d, .nil, _ => .null d
  | d, .bool true, _ => .tru d
  | d, .bool false, _ => .fls d
  | d, .num s, h => by
    have h : isNumber s = true := by cases d <;> exact h
    exact .num d s (Native.jnum_of s h)
  | d, .str b, _ => .str d _ _ (jstr_inner b)
  | 0, .list _, h => absurd h id
  | 0, .map _, h => absurd h id
  | d + 1, .list [], _ => .noElems d [] blank_nil
  | d + 1, .list (n :: l), h => .elems d _ _ (jelems_text d n l h)
  | d + 1, .map [], _ => .noMembers d [] blank_nil
  | d + 1, .map ((k, n) :: m), h => .members d _ _ (jmembers_text d k n m h.2)
theorem jelems_text : ∀ (d : Nat) (n : BNode) (l : List BNode), GoodList d (n :: l) → JElems (X := X) d (listText (n :: l)) (readList (n :: l))
  | d, n, [], h => by
    have := JElems.one (X := X) d [] n.text [] n.read blank_nil (jval_text d n h.1) blank_nil
    simpa [listText, readList] using this
  | d, n, n' :: l, h => by
    have := JElems.more (X := X) d [] n.text [] (listText (n' :: l)) n.read _ blank_nil (jval_text d n h.1) blank_nil (jelems_text d n' l h.2)
    simpa [listText, readList] using this
theorem jmembers_text : ∀ (d : Nat) (k : Bytes) (n : BNode) (m : List (Bytes × BNode)), GoodMap d ((k, n) :: m) →
    JMembers (X := X) d (mapText ((k, n) :: m)) (readMap ((k, n) :: m))
  | d, k, n, [], h => by
    have := JMembers.one (X := X) d [] (inner k) (runes k) [] [] n.text [] n.read blank_nil (jstr_inner k) blank_nil blank_nil (jval_text d n h.1) blank_nil
    simpa [mapText, readMap] using this
  | d, k, n, (k', n') :: m, h => by
    have := JMembers.more (X := X) d [] (inner k) (runes k) [] [] n.text [] (mapText ((k', n') :: m)) n.read _ blank_nil (jstr_inner k) blank_nil blank_nil (jval_text d n h.1) blank_nil
      (jmembers_text d k' n' m h.2)
    simpa [mapText, readMap] using this
end

/-- C176: what is written is UTF-8 and JSON, whatever bytes the strings have, and it is read as texts: invalid bytes as U+FFFD, and members whose keys are the same then as the last of them. -/
theorem C176_wire (n : BNode) (h : n.Good maxDepth) : Utf8.valid (encodeBytes n) = true ∧ decodeBytes (X := X) (encodeBytes n) = some (some n.read) := by
  refine ⟨(C176_utf8 n.text).2.2, ?_⟩
  unfold decodeBytes encodeBytes
  rw [(C176_utf8 n.text).2.1]
  have := (C114_document [] n.text [] (n.read (X := X)) blank_nil blank_nil (jval_text maxDepth n h)).1
  simpa using this

theorem readMap_keys (m : List (Bytes × BNode)) : (readMap (X := X) m).map (·.1) = m.map fun e => runes e.1 := by
  induction m with
  | nil => rfl
  | cons e m ih => obtain ⟨k, n⟩ := e; simp only [readMap, List.map_cons, ih]

theorem readMap_sorted : ∀ m : List (Bytes × BNode), ValidMap m → m.Pairwise (fun a b => bytesLt a.1 b.1 = true) → SortedKeys (readMap (X := X) m)
  | [], _, _ => List.Pairwise.nil
  | (k, n) :: m, hv, hs => by
    rw [List.pairwise_cons] at hs
    refine List.pairwise_cons.2 ⟨?_, readMap_sorted m hv.2.2 hs.2⟩
    have key : ∀ m : List (Bytes × BNode), ValidMap m → (∀ e ∈ m, bytesLt k e.1 = true) → ∀ e ∈ readMap (X := X) m, strLt (runes k) e.1 = true := by
      intro m
      induction m with
      | nil => intro _ _ e he; cases he
      | cons e0 m ih =>
        obtain ⟨k0, n0⟩ := e0
        intro hv' hl e he
        rcases List.mem_cons.1 he with rfl | he
        · show strLt (runes k) (runes k0) = true
          rw [← C176_order, (C176_valid k).2.1 hv.1, (C176_valid k0).2.1 hv'.1]
          exact hl (k0, n0) (by simp)
        · exact ih hv'.2.2 (fun e he => hl e (by simp [he])) e he
    exact key m hv.2.2 hs.1

mutual
theorem ofNode_read : ∀ (d : Nat) (n : BNode), n.Good d → n.Valid → ofNode (n.read (X := X)) = some n
  | _, .nil, _, _ => rfl
  | _, .bool _, _, _ => rfl
  | _, .num _, _, _ => rfl
  | _, .str b, _, h => by
    show some (BNode.str (utf8 (runes b))) = _
    rw [(C176_valid b).2.1 h]
  | 0, .list _, h, _ => absurd h id
  | 0, .map _, h, _ => absurd h id
  | d + 1, .list l, h, hv => by
    show (ofNodes (readList (X := X) l)).map BNode.list = _
    rw [ofNodes_read d l h hv]; rfl
  | d + 1, .map m, h, hv => by
    show (ofMembers (ofEntries (readMap (X := X) m))).map BNode.map = _
    rw [ofEntries_sorted _ (readMap_sorted m hv h.1), ofMembers_read d m h.2 hv]; rfl
theorem ofNodes_read : ∀ (d : Nat) (l : List BNode), GoodList d l → ValidList l → ofNodes (readList (X := X) l) = some l
  | _, [], _, _ => rfl
  | d, n :: l, h, hv => by
    simp only [readList, ofNodes, ofNode_read d n h.1 hv.1, ofNodes_read d l h.2 hv.2]
theorem ofMembers_read : ∀ (d : Nat) (m : List (Bytes × BNode)), GoodMap d m → ValidMap m → ofMembers (readMap (X := X) m) = some m
  | _, [], _, _ => rfl
  | d, (k, n) :: m, h, hv => by
    simp only [readMap, ofMembers, ofNode_read d n h.1 hv.2.1, ofMembers_read d m h.2 hv.2.2, (C176_valid k).2.1 hv.1]
end

/-- C176: if all strings are UTF-8, the node that is read has the same bytes everywhere. Missing: all other strings, see below. -/
theorem C176_bytes_partial (n : BNode) (h : n.Good maxDepth) (hv : n.Valid) : ∃ m : Node X, decodeBytes (encodeBytes n) = some (some m) ∧ ofNode m = some n :=
  ⟨n.read, (C176_wire n h).2, ofNode_read maxDepth n h hv⟩

/-- C176 is violated: a string that is not UTF-8 comes back as another one. -/
theorem C176_string_violated (b : Bytes) (h : Utf8.valid b = false) : ∃ b', decodeBytes (X := X) (encodeBytes (.str b)) = some (some (.str (runes b))) ∧ ofNode (.str (runes b) : Node X) = some (.str b') ∧ b' ≠ b :=
  ⟨utf8 (runes b), (C176_wire (.str b) trivial).2, rfl, (C176_text_violated.1 b h).1⟩

/-- C176 is violated: members are lost without an error, if their keys differ in invalid bytes only: the one with the greatest key stays. -/
theorem C176_keys_violated (k k' : Bytes) (hk : bytesLt k k' = true) (hr : runes k = runes k') (n n' : BNode) (h : n.Good 9999) (h' : n'.Good 9999) :
    decodeBytes (X := X) (encodeBytes (.map [(k, n), (k', n')])) = some (some (.map [(runes k', n'.read)])) := by
  have hg : (BNode.map [(k, n), (k', n')]).Good maxDepth := ⟨List.pairwise_cons.2 ⟨by simpa using hk, List.pairwise_singleton _ _⟩, h, h', trivial⟩
  rw [(C176_wire _ hg).2]
  show some (some (Node.map (ofEntries [(runes k, n.read), (runes k', n'.read)]))) = _
  rw [hr]
  simp [ofEntries, insertKey]

/-! ### what this gives elsewhere -/

/-- The law that the theorems about http assume of reading bytes as text (Http/Spec.lean) holds of `runes`. -/
theorem C176_text_law (N : Http.NetExt) : Http.TextLaw { N with text := runes } := fun s => (C176_utf8 s).2.1

/-- C26 for label values as bytes: different tuples of strings have different keys. -/
theorem C26_bytes (isPrint : Char → Bool) (names : List (List Char)) (vs vs' : List Bytes) (h : names.length = vs.length) (h' : names.length = vs'.length) :
    stringify isPrint names (vs.map elts) = stringify isPrint names (vs'.map elts) ↔ vs = vs' := by
  rw [C26_injective isPrint names _ _ (by simpa using h) (by simpa using h')]
  constructor
  · intro he
    have := congrArg (List.map bytesOf) he
    rw [List.map_map, List.map_map] at this
    have hid : (bytesOf ∘ elts) = id := funext C176_bytes
    rwa [hid, List.map_id, List.map_id] at this
  · rintro rfl; rfl

theorem num_one : (BNode.num ['1']).Good 9999 := show isNumber ['1'] = true by decide
theorem num_two : (BNode.num ['2']).Good 9999 := show isNumber ['2'] = true by decide

/-- Two members, one of which is lost. -/
example : encodeBytes (.map [([0xFE], .num ['1']), ([0xFF], .num ['2'])]) = utf8 (lit "{\"\\ufffd\":1,\"\\ufffd\":2}") ∧
    decodeBytes (X := XT) (encodeBytes (.map [([0xFE], .num ['1']), ([0xFF], .num ['2'])])) = some (some (.map [([Char.ofNat 0xFFFD], .digits ['2'])])) :=
  ⟨by decide +kernel, C176_keys_violated [0xFE] [0xFF] (by decide) (C176_text_violated.2 _ _ (by decide) (by decide)) (.num ['1']) (.num ['2']) num_one num_two⟩

/-- `é` and `€` come back. -/
example : decodeBytes (X := XT) (encodeBytes (.map [([0xC3, 0xA9], .str [0xE2, 0x82, 0xAC])])) = some (some (.map [(['é'], .str ['€'])])) :=
  (C176_wire (.map [([0xC3, 0xA9], .str [0xE2, 0x82, 0xAC])]) (show _ ∧ _ from ⟨List.pairwise_singleton _ _, show _ ∧ _ from ⟨trivial, trivial⟩⟩)).2

end Verif.Enc.Wire8

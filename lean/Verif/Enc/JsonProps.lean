import Verif.Enc.JsonLemmas
import Verif.Enc.DecEq
/-!
# JSON round trips (properties C39, C71, C72)
-/
set_option autoImplicit false
namespace Verif.Enc
open Verif.Strconv

/-- C39: whatever encodes, and is nested at most 10000 deep, decodes to itself up to the representation changes JSON imposes, whatever floats and
times are. -/
theorem C39_round_trip {X : Ext} (hX : Laws X) (n : Node X) (hwf : n.WF) (t : Str) (he : encode n = .ok t) (hd : n.depth ≤ maxDepth) :
    decode t = some (some n.norm) := by
  unfold encode at he
  split at he
  · rename_i henc
    injection he with he
    subst he
    obtain ⟨c, r, ht, _⟩ := text_head hX n henc
    unfold decode
    rw [if_neg (by rw [ht]; simp)]
    have := parse_text hX n hwf henc (fuelFor n.text) maxDepth [] (by unfold fuelFor; omega) hd trivial
    rw [List.append_nil] at this
    rw [this]
  · cases he

mutual
theorem norm_plain {X : Ext} : ∀ (n : Node X), n.plain = true → n.norm = n
  | .nil, _ => rfl
  | .bool _, _ => rfl
  | .str _, _ => rfl
  | .digits _, _ => rfl
  | .list l, h => by simp only [Node.norm]; rw [listNorm_plain l h]
  | .map m, h => by simp only [Node.norm]; rw [mapNorm_plain m h]
theorem listNorm_plain {X : Ext} : ∀ (l : List (Node X)), Node.listPlain l = true → Node.listNorm l = l
  | [], _ => rfl
  | n :: l, h => by
    simp only [Node.listPlain, Bool.and_eq_true] at h
    simp only [Node.listNorm]; rw [norm_plain n h.1, listNorm_plain l h.2]
theorem mapNorm_plain {X : Ext} : ∀ (m : List (Str × Node X)), Node.mapPlain m = true → Node.mapNorm m = m
  | [], _ => rfl
  | (k, n) :: l, h => by
    simp only [Node.mapPlain, Bool.and_eq_true] at h
    simp only [Node.mapNorm]; rw [norm_plain n h.1, mapNorm_plain l h.2]
end

/-- C39: nodes built of nil, booleans, strings, digits, lists and maps come back unchanged. -/
theorem C39_plain {X : Ext} (hX : Laws X) (n : Node X) (hwf : n.WF) (hp : n.plain = true) (t : Str) (he : encode n = .ok t) (hd : n.depth ≤ maxDepth) :
    decode t = some (some n) := by
  rw [C39_round_trip hX n hwf t he hd, norm_plain n hp]

theorem insertKey_plain {X : Ext} (k : Str) (n : Node X) (m : List (Str × Node X)) (hn : n.plain = true) (h : Node.mapPlain m = true) :
    Node.mapPlain (insertKey k n m) = true := by
  induction m with
  | nil => simp [insertKey, Node.mapPlain, hn]
  | cons e m ih =>
    obtain ⟨k', n'⟩ := e
    simp only [Node.mapPlain, Bool.and_eq_true] at h
    simp only [insertKey]
    split
    · simp [Node.mapPlain, hn, h]
    · split
      · simp [Node.mapPlain, hn, h]
      · simp [Node.mapPlain, h, ih h.2]

theorem ofEntries_plain {X : Ext} (l : List (Str × Node X)) (h : Node.mapPlain l = true) : Node.mapPlain (ofEntries l) = true := by
  have key : ∀ (l acc : List (Str × Node X)), Node.mapPlain l = true → Node.mapPlain acc = true →
      Node.mapPlain (l.foldl (fun m e => insertKey e.1 e.2 m) acc) = true := by
    intro l
    induction l with
    | nil => intro acc _ h; exact h
    | cons e l ih =>
      obtain ⟨k, n⟩ := e
      intro acc hl ha
      simp only [Node.mapPlain, Bool.and_eq_true] at hl
      exact ih _ hl.2 (insertKey_plain k n acc hl.1 ha)
  exact key l [] h rfl

mutual
theorem plain_norm {X : Ext} : ∀ (n : Node X), n.norm.plain = true
  | .nil => rfl
  | .bool _ => rfl
  | .str _ => rfl
  | .digits _ => rfl
  | .int _ => rfl
  | .float _ => rfl
  | .time _ => rfl
  | .dur _ => rfl
  | .list l => plain_listNorm l
  | .map m => plain_mapNorm m
  | .pairs l => by
    simp only [Node.norm, Node.plain]
    exact ofEntries_plain _ (plain_pairsNorm l)
theorem plain_listNorm {X : Ext} : ∀ (l : List (Node X)), Node.listPlain (Node.listNorm l) = true
  | [] => rfl
  | n :: l => by simp [Node.listNorm, Node.listPlain, plain_norm n, plain_listNorm l]
theorem plain_mapNorm {X : Ext} : ∀ (m : List (Str × Node X)), Node.mapPlain (Node.mapNorm m) = true
  | [] => rfl
  | (_, n) :: l => by simp [Node.mapNorm, Node.mapPlain, plain_norm n, plain_mapNorm l]
theorem plain_pairsNorm {X : Ext} : ∀ (m : List ((Str × Str) × Node X)), Node.mapPlain (Node.pairsNorm m) = true
  | [] => rfl
  | (_, n) :: l => by simp [Node.pairsNorm, Node.mapPlain, plain_norm n, plain_pairsNorm l]
end

/-- C39: a second round trip changes nothing more. -/
theorem C39_idempotent {X : Ext} (n : Node X) : n.norm.norm = n.norm := norm_plain _ (plain_norm n)

/-! ### nesting -/

/-- Lists nested `k + 1` deep. -/
def nestList (X : Ext) : Nat → Node X
  | 0 => .list []
  | k + 1 => .list [nestList X k]

/-- Objects nested `k + 1` deep. -/
def nestMap (X : Ext) : Nat → Node X
  | 0 => .map []
  | k + 1 => .map [(lit "a", nestMap X k)]

theorem nestList_text (X : Ext) (k : Nat) : ∃ r, (nestList X k).text = List.replicate (k + 1) '[' ++ r := by
  induction k with
  | zero => exact ⟨[']'], by simp [nestList, Node.text, Node.listText]⟩
  | succ k ih =>
    obtain ⟨r, hr⟩ := ih
    exact ⟨r ++ [']'], by rw [nestList]; simp only [Node.text, Node.listText, hr]; rw [List.replicate_succ (n := k + 1)]; simp⟩

theorem nestList_encodable (X : Ext) (k : Nat) : (nestList X k).encodable = true := by
  induction k with
  | zero => rfl
  | succ k ih => simp [nestList, Node.encodable, Node.listEncodable, ih]

/-- Too many opening brackets are an error, however much fuel there is. -/
theorem parse_brackets {X : Ext} (d : Nat) : ∀ (fuel : Nat) (r : Str), parseValue (X := X) fuel d (List.replicate (d + 1) '[' ++ r) = none := by
  induction d with
  | zero =>
    intro fuel r
    cases fuel with
    | zero => rfl
    | succ fuel => rw [parseValue]; simp [skipWs, isWs]
  | succ d ih =>
    intro fuel r
    cases fuel with
    | zero => rfl
    | succ fuel =>
      rw [parseValue, List.replicate_succ, List.cons_append, skipWs_cons _ _ (by decide)]
      simp only
      have he : parseElems (X := X) fuel d (List.replicate (d + 1) '[' ++ r) = none := by
        cases fuel with
        | zero => rfl
        | succ fuel => rw [parseElems, ih]
      rw [List.replicate_succ, List.cons_append] at he ⊢
      rw [skipWs_cons _ _ (by decide)]
      split
      · rename_i h; injection h with h; exact absurd h (by decide)
      · rw [he]

/-- C71 fails: lists nested more than 10000 deep are encoded without complaint, to a text that can not be decoded. -/
theorem C71_violated (X : Ext) (k : Nat) (h : 10000 ≤ k) : ∃ t, encode (nestList X k) = .ok t ∧ decode (X := X) t = none := by
  obtain ⟨r, hr⟩ := nestList_text X k
  refine ⟨_, by rw [encode, if_pos (nestList_encodable X k)], ?_⟩
  unfold decode
  rw [if_neg (by rw [hr, List.replicate_succ]; simp)]
  have : List.replicate (k + 1) '[' ++ r = List.replicate (maxDepth + 1) '[' ++ (List.replicate (k - maxDepth) '[' ++ r) := by
    rw [← List.append_assoc, List.replicate_append_replicate]
    have : maxDepth + 1 + (k - maxDepth) = k + 1 := by
      have : maxDepth ≤ k := h
      omega
    rw [this]
  rw [hr, this, parse_brackets]

/-- C71 fails: with objects in place of lists the encoder panics instead. -/
theorem C71_objects_violated (X : Ext) (k : Nat) (h : 10000 ≤ k) : encode (nestMap X k) = .error .explicit := by
  have hd : ∀ j, (nestMap X j).depth = j + 1 := by
    intro j
    induction j with
    | zero => rfl
    | succ j ih => simp [nestMap, Node.depth, Node.mapDepth, ih]
  have : (nestMap X k).encodable = false := by
    have hk := hd k
    cases k with
    | zero => omega
    | succ k =>
      simp only [nestMap] at hk ⊢
      simp only [Node.encodable, Bool.and_eq_false_iff]
      right
      simp only [Node.depth] at hk
      rw [hk]
      simp [maxDepth]; omega
  rw [encode, this]; rfl

/-- C71, partial: up to 10000 levels everything that encodes decodes. -/
theorem C71_partial {X : Ext} (hX : Laws X) (n : Node X) (hwf : n.WF) (t : Str) (he : encode n = .ok t) (hd : n.depth ≤ maxDepth) :
    ∃ m, decode (X := X) t = some (some m) := ⟨_, C39_round_trip hX n hwf t he hd⟩

/-- C72 fails: what follows the first value is ignored, whatever it is. -/
theorem C72_violated {X : Ext} (hX : Laws X) (n : Node X) (hwf : n.WF) (t rest : Str) (he : encode n = .ok t) (hd : n.depth ≤ maxDepth) :
    decode (t ++ ' ' :: rest) = some (some n.norm) := by
  unfold encode at he
  split at he
  · rename_i henc
    injection he with he
    subst he
    unfold decode
    rw [if_neg (by simp)]
    have := parse_text hX n hwf henc (fuelFor (n.text ++ ' ' :: rest)) maxDepth (' ' :: rest) (by unfold fuelFor; simp; omega) hd
      ⟨by decide, by decide, by decide, by decide⟩
    rw [this]
  · cases he

section Examples

/-- Floats that are never valid in JSON; times that print as nothing. -/
def XJ : Ext := ⟨Unit, Unit, fun _ => none, fun _ => some (), fun _ => lit "0", fun _ => (), fun _ => 0, fun _ => 0, id, fun _ => true, (),
  fun _ => lit "2020-01-02T03:04:05Z", fun _ => none, (), fun _ => lit "1s", fun _ => none, fun _ => [], fun _ => none⟩

instance : DecidableEq XJ.F := inferInstanceAs (DecidableEq Unit)
instance : DecidableEq XJ.T := inferInstanceAs (DecidableEq Unit)

/-- The assumptions can be met. -/
example : Laws XJ := ⟨by simp [XJ], by simp [XJ]⟩

/-- An object with an escaped key, a nested list, a negative integer and a time. -/
def sample : Node XJ := .pairs [((lit "Name", lit "n\"<"), .list [.int (-12), .nil, .str ['a', '\n', Char.ofNat 0x2028, 'é']]), ((lit "At", lit "at"), .time ())]

example : encode sample = .ok (lit "{\"n\\\"\\u003c\":[-12,null,\"a\\n\\u2028é\"],\"at\":\"2020-01-02T03:04:05Z\"}") := by decide +kernel
example : decode (lit " {\"at\" : \"2020-01-02T03:04:05Z\", \"n\\u0022<\":[-12,null,\"\\u0061\\n\\u2028é\"]} ") = some (some sample.norm) := by decide +kernel
/-- Surrogate pairs, lone surrogates, bad numbers, unterminated lists. -/
example : decode (X := XJ) (lit "\"\\ud83d\\ude00\\ud83d\"") = some (some (.str [Char.ofNat 0x1F600, Char.ofNat 0xFFFD])) := by decide +kernel
example : decode (X := XJ) (lit "-") = none ∧ decode (X := XJ) (lit "[1,]") = none ∧ decode (X := XJ) (lit "1.e2") = none ∧ decode (X := XJ) (lit "[1") = none ∧
    decode (X := XJ) (lit "01") = some (some (.digits (lit "0"))) ∧ decode (X := XJ) [] = some none := by decide +kernel
/-- Duplicate keys: the last one wins. -/
example : decode (X := XJ) (lit "{\"b\":1,\"a\":2,\"b\":3}") = some (some (.map [(lit "a", .digits (lit "2")), (lit "b", .digits (lit "3"))])) := by decide +kernel

end Examples

end Verif.Enc

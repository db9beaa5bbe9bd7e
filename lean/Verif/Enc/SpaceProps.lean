import Verif.Enc.JsonProps
/-!
# White space in JSON (property C113): `JSON{Indent: true}` and documents of others
-/
set_option autoImplicit false
namespace Verif.Enc
open Verif.Strconv

/-! ### model -/

/-- A new line, indented by `k` levels of two spaces (`json.Indent` with prefix "" and indent "  "). -/
def newline (k : Nat) : Str := '\n' :: List.replicate (2 * k) ' '

mutual
/-- The text `json.MarshalIndent(n, "", "  ")` produces for a node (enc/json.go L51-56), at level `k`: what `json.Marshal` produces, reformatted
by `json.Indent`. Empty lists and objects stay on their line. -/
def Node.indented {X : Ext} (k : Nat) : Node X → Str
  | .list l => '[' :: (Node.listIndented k l ++ [']'])
  | .map m => '{' :: (Node.mapIndented k m ++ ['}'])
  | .pairs l => '{' :: (Node.pairsIndented k l ++ ['}'])
  | .nil => Node.text (X := X) .nil
  | .bool b => Node.text (X := X) (.bool b)
  | .str s => Node.text (X := X) (.str s)
  | .int i => Node.text (X := X) (.int i)
  | .float f => Node.text (.float f)
  | .digits s => Node.text (X := X) (.digits s)
  | .time t => Node.text (.time t)
  | .dur d => Node.text (X := X) (.dur d)
def Node.listIndented {X : Ext} (k : Nat) : List (Node X) → Str
  | [] => []
  | [n] => newline (k + 1) ++ n.indented (k + 1) ++ newline k
  | n :: l => newline (k + 1) ++ n.indented (k + 1) ++ ',' :: Node.listIndented k l
def Node.mapIndented {X : Ext} (k : Nat) : List (Str × Node X) → Str
  | [] => []
  | [(x, n)] => newline (k + 1) ++ jsonStr x ++ ':' :: ' ' :: n.indented (k + 1) ++ newline k
  | (x, n) :: l => newline (k + 1) ++ jsonStr x ++ ':' :: ' ' :: n.indented (k + 1) ++ ',' :: Node.mapIndented k l
def Node.pairsIndented {X : Ext} (k : Nat) : List ((Str × Str) × Node X) → Str
  | [] => []
  | [((_, x), n)] => newline (k + 1) ++ jsonStr x ++ ':' :: ' ' :: n.indented (k + 1) ++ newline k
  | ((_, x), n) :: l => newline (k + 1) ++ jsonStr x ++ ':' :: ' ' :: n.indented (k + 1) ++ ',' :: Node.pairsIndented k l
end

/-- `JSON{Indent: true}.Encode` (enc/json.go L50-64): panics on errors, which are those of `json.Marshal`. -/
def encodeIndent {X : Ext} (n : Node X) : Go Str :=
  if n.encodable then .ok (n.indented 0) else .error .explicit

/-! ### specification: the same tokens with white space between them -/

/-- Only white space. -/
def Blank (w : Str) : Prop := ∀ c ∈ w, c ∈ [' ', '\t', '\r', '\n']

/-- White space for the decoder is white space. -/
theorem isWs_iff (c : Char) : isWs c = true ↔ c ∈ [' ', '\t', '\r', '\n'] := by simp [isWs]

mutual
/-- `s` is the JSON text of the node with white space inserted between its tokens. -/
def Node.Spaced {X : Ext} : Node X → Str → Prop
  | .list l, s => match l with
    | [] => ∃ w, Blank w ∧ s = '[' :: (w ++ [']'])
    | n :: l => ∃ t, Node.listSpaced (n :: l) t ∧ s = '[' :: (t ++ [']'])
  | .map m, s => match m with
    | [] => ∃ w, Blank w ∧ s = '{' :: (w ++ ['}'])
    | e :: m => ∃ t, Node.mapSpaced (e :: m) t ∧ s = '{' :: (t ++ ['}'])
  | .pairs m, s => match m with
    | [] => ∃ w, Blank w ∧ s = '{' :: (w ++ ['}'])
    | e :: m => ∃ t, Node.pairsSpaced (e :: m) t ∧ s = '{' :: (t ++ ['}'])
  | .nil, s => s = Node.text (X := X) .nil
  | .bool b, s => s = Node.text (X := X) (.bool b)
  | .str x, s => s = Node.text (X := X) (.str x)
  | .int i, s => s = Node.text (X := X) (.int i)
  | .float f, s => s = Node.text (.float f)
  | .digits x, s => s = Node.text (X := X) (.digits x)
  | .time t, s => s = Node.text (.time t)
  | .dur d, s => s = Node.text (X := X) (.dur d)
def Node.listSpaced {X : Ext} : List (Node X) → Str → Prop
  | [], s => s = []
  | [n], s => ∃ w t w', Blank w ∧ n.Spaced t ∧ Blank w' ∧ s = w ++ t ++ w'
  | n :: l, s => ∃ w t w' t', Blank w ∧ n.Spaced t ∧ Blank w' ∧ Node.listSpaced l t' ∧ s = w ++ t ++ w' ++ ',' :: t'
def Node.mapSpaced {X : Ext} : List (Str × Node X) → Str → Prop
  | [], s => s = []
  | [(k, n)], s => ∃ w1 w2 w3 t w4, Blank w1 ∧ Blank w2 ∧ Blank w3 ∧ n.Spaced t ∧ Blank w4 ∧ s = w1 ++ jsonStr k ++ w2 ++ ':' :: w3 ++ t ++ w4
  | (k, n) :: l, s => ∃ w1 w2 w3 t w4 t', Blank w1 ∧ Blank w2 ∧ Blank w3 ∧ n.Spaced t ∧ Blank w4 ∧ Node.mapSpaced l t' ∧
      s = w1 ++ jsonStr k ++ w2 ++ ':' :: w3 ++ t ++ w4 ++ ',' :: t'
def Node.pairsSpaced {X : Ext} : List ((Str × Str) × Node X) → Str → Prop
  | [], s => s = []
  | [((_, k), n)], s => ∃ w1 w2 w3 t w4, Blank w1 ∧ Blank w2 ∧ Blank w3 ∧ n.Spaced t ∧ Blank w4 ∧ s = w1 ++ jsonStr k ++ w2 ++ ':' :: w3 ++ t ++ w4
  | ((_, k), n) :: l, s => ∃ w1 w2 w3 t w4 t', Blank w1 ∧ Blank w2 ∧ Blank w3 ∧ n.Spaced t ∧ Blank w4 ∧ Node.pairsSpaced l t' ∧
      s = w1 ++ jsonStr k ++ w2 ++ ':' :: w3 ++ t ++ w4 ++ ',' :: t'
end

/-! ### lemmas -/

theorem skipWs_blank (w r : Str) (h : Blank w) : skipWs (w ++ r) = skipWs r := by
  induction w with
  | nil => rfl
  | cons c w ih =>
    rw [List.cons_append, skipWs, if_pos ((isWs_iff c).2 (h c (List.mem_cons_self ..))), ih (fun c hc => h c (List.mem_cons_of_mem _ hc))]

theorem parseValue_blank {X : Ext} (w : Str) (h : Blank w) (fuel d : Nat) (s : Str) :
    parseValue (X := X) fuel d (w ++ s) = parseValue fuel d s := by
  cases fuel with
  | zero => rw [parseValue, parseValue]
  | succ fuel => rw [parseValue, parseValue, skipWs_blank w s h]

theorem parseMembers_blank {X : Ext} (w : Str) (h : Blank w) (fuel d : Nat) (s : Str) :
    parseMembers (X := X) fuel d (w ++ s) = parseMembers fuel d s := by
  cases fuel with
  | zero => rw [parseMembers, parseMembers]
  | succ fuel => rw [parseMembers, parseMembers, skipWs_blank w s h]

theorem stops_blank (w r : Str) (h : Blank w) (hr : Stops r) : Stops (w ++ r) := by
  cases w with
  | nil => exact hr
  | cons c w =>
    have hc := h c (List.mem_cons_self ..)
    simp only [List.mem_cons, List.not_mem_nil, or_false] at hc
    rcases hc with rfl | rfl | rfl | rfl <;> exact ⟨by decide, by decide, by decide, by decide⟩

theorem spaced_head {X : Ext} (hX : Laws X) (n : Node X) (h : n.encodable = true) (s : Str) (hs : n.Spaced s) :
    ∃ c r, s = c :: r ∧ isWs c = false ∧ c ≠ ']' ∧ c ≠ '}' := by
  cases n with
  | list l => cases l <;> (obtain ⟨_, _, rfl⟩ := hs; exact ⟨'[', _, rfl, by decide, by decide, by decide⟩)
  | map l => cases l <;> (obtain ⟨_, _, rfl⟩ := hs; exact ⟨'{', _, rfl, by decide, by decide, by decide⟩)
  | pairs l => cases l <;> (obtain ⟨_, _, rfl⟩ := hs; exact ⟨'{', _, rfl, by decide, by decide, by decide⟩)
  | _ => cases hs; exact text_head hX _ h

mutual
theorem parse_spaced {X : Ext} (hX : Laws X) : ∀ (n : Node X), n.WF → n.encodable = true → ∀ s, n.Spaced s → ∀ (fuel d : Nat) (rest : Str),
    2 * s.length ≤ fuel → n.depth ≤ d → Stops rest → parseValue fuel d (s ++ rest) = some (n.norm, rest) := by
  intro n hwf henc s hsp fuel d rest hf hd hs
  have leaf : s = n.text → parseValue fuel d (s ++ rest) = some (n.norm, rest) := by
    intro he; subst he; exact parse_text hX n hwf henc fuel d rest hf hd hs
  obtain ⟨c0, r0, ht0, _⟩ := spaced_head hX n henc s hsp
  cases n with
  | nil => exact leaf hsp
  | bool b => exact leaf hsp
  | str s => exact leaf hsp
  | int i => exact leaf hsp
  | float f => exact leaf hsp
  | digits s => exact leaf hsp
  | time t => exact leaf hsp
  | dur x => exact leaf hsp
  | list l =>
    obtain ⟨fuel, rfl⟩ : ∃ k, fuel = k + 1 := ⟨fuel - 1, by rw [ht0] at hf; simp at hf; omega⟩
    simp only [Node.depth] at hd
    obtain ⟨d, rfl⟩ : ∃ k, d = k + 1 := ⟨d - 1, by omega⟩
    rw [parseValue]
    cases l with
    | nil =>
      obtain ⟨w, hw, rfl⟩ := hsp
      simp only [List.cons_append, List.append_assoc, List.nil_append, Node.norm]
      rw [skipWs_cons _ _ (by decide)]
      simp only
      rw [skipWs_blank w _ hw, skipWs_cons _ _ (by decide)]
      rfl
    | cons n l =>
      obtain ⟨t, ht, rfl⟩ := hsp
      have hh : n.encodable = true := by simp only [Node.encodable, Node.listEncodable, Bool.and_eq_true] at henc; exact henc.1
      have hne := parse_spacedElems hX n l hwf henc t ht fuel d rest (by simp only [List.length_cons, List.length_append] at hf; simp at hf; omega) (by omega)
      have hstart : ∃ w c r', Blank w ∧ t ++ ']' :: rest = w ++ c :: r' ∧ isWs c = false ∧ c ≠ ']' := by
        cases l with
        | nil =>
          obtain ⟨w, t1, w', h1, h2, h3, rfl⟩ := ht
          obtain ⟨c, r, rfl, h4, h5, _⟩ := spaced_head hX n hh t1 h2
          exact ⟨w, c, _, h1, by simp only [List.append_assoc, List.cons_append]; rfl, h4, h5⟩
        | cons m l =>
          obtain ⟨w, t1, w', t', h1, h2, h3, _, rfl⟩ := ht
          obtain ⟨c, r, rfl, h4, h5, _⟩ := spaced_head hX n hh t1 h2
          exact ⟨w, c, _, h1, by simp only [List.append_assoc, List.cons_append]; rfl, h4, h5⟩
      obtain ⟨w, c, r', hw, hr', hc1, hc2⟩ := hstart
      simp only [List.cons_append, List.append_assoc, List.nil_append, Node.norm]
      rw [skipWs_cons _ _ (by decide)]
      simp only
      rw [show skipWs (t ++ ']' :: rest) = c :: r' by rw [hr', skipWs_blank w _ hw, skipWs_cons _ _ hc1]]
      split
      · rename_i he; injection he with he; exact absurd he hc2
      · rw [hne]
  | map m =>
    obtain ⟨fuel, rfl⟩ : ∃ k, fuel = k + 1 := ⟨fuel - 1, by rw [ht0] at hf; simp at hf; omega⟩
    simp only [Node.depth] at hd
    obtain ⟨d, rfl⟩ : ∃ k, d = k + 1 := ⟨d - 1, by omega⟩
    rw [parseValue]
    cases m with
    | nil =>
      obtain ⟨w, hw, rfl⟩ := hsp
      simp only [List.cons_append, List.append_assoc, List.nil_append, Node.norm]
      rw [skipWs_cons _ _ (by decide)]
      simp only
      rw [skipWs_blank w _ hw, skipWs_cons _ _ (by decide)]
      rfl
    | cons e m =>
      obtain ⟨t, ht, rfl⟩ := hsp
      have hrec := parse_spacedMembers hX e m
      obtain ⟨k, n⟩ := e
      simp only [Node.encodable, Bool.and_eq_true] at henc
      have hne := hrec hwf.2 henc.1 t ht fuel d rest (by simp only [List.length_cons, List.length_append] at hf; simp at hf; omega) (by omega)
      have hstart : ∃ w r', Blank w ∧ t ++ '}' :: rest = w ++ '"' :: r' := by
        cases m with
        | nil =>
          obtain ⟨w, _, _, _, _, h1, _, _, _, _, rfl⟩ := ht
          exact ⟨w, _, h1, by simp only [jsonStr, List.append_assoc, List.cons_append]; rfl⟩
        | cons m l =>
          obtain ⟨w, _, _, _, _, _, h1, _, _, _, _, _, rfl⟩ := ht
          exact ⟨w, _, h1, by simp only [jsonStr, List.append_assoc, List.cons_append]; rfl⟩
      obtain ⟨w, r', hw, hr'⟩ := hstart
      simp only [List.cons_append, List.append_assoc, List.nil_append, Node.norm]
      rw [skipWs_cons _ _ (by decide)]
      simp only
      rw [show skipWs (t ++ '}' :: rest) = '"' :: r' by rw [hr', skipWs_blank w _ hw, skipWs_cons _ _ (by decide)]]
      split
      · rename_i he; injection he with he; exact absurd he (by decide)
      rw [hne]
      simp only
      rw [ofEntries_sorted _ (mapNorm_keys _ hwf.1)]
  | pairs m =>
    obtain ⟨fuel, rfl⟩ : ∃ k, fuel = k + 1 := ⟨fuel - 1, by rw [ht0] at hf; simp at hf; omega⟩
    simp only [Node.depth] at hd
    obtain ⟨d, rfl⟩ : ∃ k, d = k + 1 := ⟨d - 1, by omega⟩
    rw [parseValue]
    cases m with
    | nil =>
      obtain ⟨w, hw, rfl⟩ := hsp
      simp only [List.cons_append, List.append_assoc, List.nil_append, Node.norm]
      rw [skipWs_cons _ _ (by decide)]
      simp only
      rw [skipWs_blank w _ hw, skipWs_cons _ _ (by decide)]
      simp [Node.pairsNorm, ofEntries]
    | cons e m =>
      obtain ⟨t, ht, rfl⟩ := hsp
      have hrec := parse_spacedPairs hX e m
      obtain ⟨⟨k0, k⟩, n⟩ := e
      simp only [Node.encodable, Bool.and_eq_true] at henc
      have hne := hrec hwf henc.1 t ht fuel d rest (by simp only [List.length_cons, List.length_append] at hf; simp at hf; omega) (by omega)
      have hstart : ∃ w r', Blank w ∧ t ++ '}' :: rest = w ++ '"' :: r' := by
        cases m with
        | nil =>
          obtain ⟨w, _, _, _, _, h1, _, _, _, _, rfl⟩ := ht
          exact ⟨w, _, h1, by simp only [jsonStr, List.append_assoc, List.cons_append]; rfl⟩
        | cons m l =>
          obtain ⟨w, _, _, _, _, _, h1, _, _, _, _, _, rfl⟩ := ht
          exact ⟨w, _, h1, by simp only [jsonStr, List.append_assoc, List.cons_append]; rfl⟩
      obtain ⟨w, r', hw, hr'⟩ := hstart
      simp only [List.cons_append, List.append_assoc, List.nil_append, Node.norm]
      rw [skipWs_cons _ _ (by decide)]
      simp only
      rw [show skipWs (t ++ '}' :: rest) = '"' :: r' by rw [hr', skipWs_blank w _ hw, skipWs_cons _ _ (by decide)]]
      split
      · rename_i he; injection he with he; exact absurd he (by decide)
      rw [hne]
termination_by n => sizeOf n
decreasing_by all_goals (subst_vars; first | (simp; done) | (simp; omega) | omega)
theorem parse_spacedElems {X : Ext} (hX : Laws X) : ∀ (n : Node X) (l : List (Node X)), Node.listWF (n :: l) → Node.listEncodable (n :: l) = true →
    ∀ s, Node.listSpaced (n :: l) s → ∀ (fuel d : Nat) (rest : Str), 2 * s.length + 1 ≤ fuel →
    Node.listDepth (n :: l) ≤ d → parseElems fuel d (s ++ ']' :: rest) = some (Node.listNorm (n :: l), rest) := by
  intro n l hwf henc s hsp fuel d rest hf hd
  obtain ⟨fuel, rfl⟩ : ∃ k, fuel = k + 1 := ⟨fuel - 1, by omega⟩
  simp only [Node.listEncodable, Bool.and_eq_true] at henc
  simp only [Node.listDepth] at hd
  rw [parseElems]
  cases l with
  | nil =>
    obtain ⟨w, t, w', hw, ht, hw', rfl⟩ := hsp
    simp only [List.length_append] at hf
    simp only [List.append_assoc]
    rw [parseValue_blank w hw, parse_spaced hX n hwf.1 henc.1 t ht fuel d (w' ++ ']' :: rest) (by omega) (by omega) (stops_blank _ _ hw' (stops_sep _ _ (by simp)))]
    simp only
    rw [skipWs_blank w' _ hw', skipWs_cons _ _ (by decide)]
    simp [Node.listNorm]
  | cons m l =>
    obtain ⟨w, t, w', t', hw, ht, hw', ht', rfl⟩ := hsp
    simp only [List.length_append, List.length_cons] at hf
    simp only [List.append_assoc, List.cons_append]
    rw [parseValue_blank w hw, parse_spaced hX n hwf.1 henc.1 t ht fuel d _ (by omega) (by omega) (stops_blank _ _ hw' (stops_sep _ _ (by simp)))]
    simp only
    rw [skipWs_blank w' _ hw', skipWs_cons _ _ (by decide)]
    simp only
    rw [parse_spacedElems hX m l hwf.2 (by simpa [Node.listEncodable] using henc.2) t' ht' fuel d rest (by omega) (by simp only [Node.listDepth] at hd ⊢; omega)]
    simp [Node.listNorm]
termination_by n l => sizeOf n + sizeOf l + 1
decreasing_by all_goals (subst_vars; first | (simp; done) | (simp; omega) | omega)
theorem parse_spacedMembers {X : Ext} (hX : Laws X) : ∀ (e : Str × Node X) (m : List (Str × Node X)), Node.mapWF (e :: m) →
    Node.mapEncodable (e :: m) = true → ∀ s, Node.mapSpaced (e :: m) s → ∀ (fuel d : Nat) (rest : Str), 2 * s.length + 1 ≤ fuel →
    Node.mapDepth (e :: m) ≤ d → parseMembers fuel d (s ++ '}' :: rest) = some (Node.mapNorm (e :: m), rest) := by
  intro e m hwf henc s hsp fuel d rest hf hd
  have hsz : sizeOf e.2 < sizeOf e := by cases e; simp; omega
  have hp := parse_spaced hX e.2
  obtain ⟨fuel, rfl⟩ : ∃ k, fuel = k + 1 := ⟨fuel - 1, by omega⟩
  have hrec : ∀ e' m', m = e' :: m' → _ := fun e' m' hm => parse_spacedMembers hX e' m'
  obtain ⟨k, n⟩ := e
  dsimp only at hp
  simp only [Node.mapEncodable, Bool.and_eq_true] at henc
  simp only [Node.mapDepth] at hd
  cases m with
  | nil =>
    obtain ⟨w1, w2, w3, t, w4, h1, h2, h3, ht, h4, rfl⟩ := hsp
    simp only [List.length_append, List.length_cons] at hf
    simp only [List.append_assoc, List.cons_append]
    rw [parseMembers_blank w1 h1, parseMembers]
    simp only [jsonStr, List.append_assoc, List.cons_append, List.nil_append]
    rw [skipWs_cons _ _ (by decide)]
    simp only [parseStr_jsonStr]
    rw [skipWs_blank w2 _ h2, skipWs_cons _ _ (by decide)]
    simp only
    rw [parseValue_blank w3 h3, hp hwf.1 henc.1 t ht fuel d _ (by omega) (by omega) (stops_blank _ _ h4 (stops_sep _ _ (by simp)))]
    simp only
    rw [skipWs_blank w4 _ h4, skipWs_cons _ _ (by decide)]
    simp [Node.mapNorm]
  | cons e m =>
    have hrec := hrec e m rfl
    obtain ⟨k', n'⟩ := e
    obtain ⟨w1, w2, w3, t, w4, t', h1, h2, h3, ht, h4, ht', rfl⟩ := hsp
    simp only [List.length_append, List.length_cons] at hf
    simp only [List.append_assoc, List.cons_append]
    rw [parseMembers_blank w1 h1, parseMembers]
    simp only [jsonStr, List.append_assoc, List.cons_append, List.nil_append]
    rw [skipWs_cons _ _ (by decide)]
    simp only [parseStr_jsonStr]
    rw [skipWs_blank w2 _ h2, skipWs_cons _ _ (by decide)]
    simp only
    rw [parseValue_blank w3 h3, hp hwf.1 henc.1 t ht fuel d _ (by omega) (by omega) (stops_blank _ _ h4 (stops_sep _ _ (by simp)))]
    simp only
    rw [skipWs_blank w4 _ h4, skipWs_cons _ _ (by decide)]
    simp only
    rw [hrec hwf.2 (by simpa [Node.mapEncodable] using henc.2) t' ht' fuel d rest (by omega) (by simp only [Node.mapDepth] at hd ⊢; omega)]
    simp [Node.mapNorm]
termination_by e l => sizeOf e + sizeOf l + 1
decreasing_by all_goals (subst_vars; first | (simp; done) | (simp; omega) | omega)
theorem parse_spacedPairs {X : Ext} (hX : Laws X) : ∀ (e : (Str × Str) × Node X) (m : List ((Str × Str) × Node X)), Node.pairsWF (e :: m) →
    Node.pairsEncodable (e :: m) = true → ∀ s, Node.pairsSpaced (e :: m) s → ∀ (fuel d : Nat) (rest : Str), 2 * s.length + 1 ≤ fuel →
    Node.pairsDepth (e :: m) ≤ d → parseMembers fuel d (s ++ '}' :: rest) = some (Node.pairsNorm (e :: m), rest) := by
  intro e m hwf henc s hsp fuel d rest hf hd
  have hsz : sizeOf e.2 < sizeOf e := by cases e; simp; omega
  have hp := parse_spaced hX e.2
  obtain ⟨fuel, rfl⟩ : ∃ k, fuel = k + 1 := ⟨fuel - 1, by omega⟩
  have hrec : ∀ e' m', m = e' :: m' → _ := fun e' m' hm => parse_spacedPairs hX e' m'
  obtain ⟨⟨k0, k⟩, n⟩ := e
  dsimp only at hp
  simp only [Node.pairsEncodable, Bool.and_eq_true] at henc
  simp only [Node.pairsDepth] at hd
  cases m with
  | nil =>
    obtain ⟨w1, w2, w3, t, w4, h1, h2, h3, ht, h4, rfl⟩ := hsp
    simp only [List.length_append, List.length_cons] at hf
    simp only [List.append_assoc, List.cons_append]
    rw [parseMembers_blank w1 h1, parseMembers]
    simp only [jsonStr, List.append_assoc, List.cons_append, List.nil_append]
    rw [skipWs_cons _ _ (by decide)]
    simp only [parseStr_jsonStr]
    rw [skipWs_blank w2 _ h2, skipWs_cons _ _ (by decide)]
    simp only
    rw [parseValue_blank w3 h3, hp hwf.1 henc.1 t ht fuel d _ (by omega) (by omega) (stops_blank _ _ h4 (stops_sep _ _ (by simp)))]
    simp only
    rw [skipWs_blank w4 _ h4, skipWs_cons _ _ (by decide)]
    simp [Node.pairsNorm]
  | cons e m =>
    have hrec := hrec e m rfl
    obtain ⟨⟨k0', k'⟩, n'⟩ := e
    obtain ⟨w1, w2, w3, t, w4, t', h1, h2, h3, ht, h4, ht', rfl⟩ := hsp
    simp only [List.length_append, List.length_cons] at hf
    simp only [List.append_assoc, List.cons_append]
    rw [parseMembers_blank w1 h1, parseMembers]
    simp only [jsonStr, List.append_assoc, List.cons_append, List.nil_append]
    rw [skipWs_cons _ _ (by decide)]
    simp only [parseStr_jsonStr]
    rw [skipWs_blank w2 _ h2, skipWs_cons _ _ (by decide)]
    simp only
    rw [parseValue_blank w3 h3, hp hwf.1 henc.1 t ht fuel d _ (by omega) (by omega) (stops_blank _ _ h4 (stops_sep _ _ (by simp)))]
    simp only
    rw [skipWs_blank w4 _ h4, skipWs_cons _ _ (by decide)]
    simp only
    rw [hrec hwf.2 (by simpa [Node.pairsEncodable] using henc.2) t' ht' fuel d rest (by omega) (by simp only [Node.pairsDepth] at hd ⊢; omega)]
    simp [Node.pairsNorm]
termination_by e l => sizeOf e + sizeOf l + 1
decreasing_by all_goals (subst_vars; first | (simp; done) | (simp; omega) | omega)
end

theorem blank_nil : Blank [] := fun _ h => by cases h
theorem blank_newline (k : Nat) : Blank (newline k) := by
  intro c hc
  simp only [newline, List.mem_cons, List.mem_replicate] at hc
  rcases hc with rfl | ⟨_, rfl⟩ <;> decide
theorem blank_space : Blank [' '] := by intro c hc; simp at hc; subst hc; decide

mutual
theorem text_spaced {X : Ext} : ∀ (n : Node X), n.Spaced n.text
  | .list [] => ⟨[], blank_nil, rfl⟩
  | .list (n :: l) => ⟨_, listText_spaced (n :: l), rfl⟩
  | .map [] => ⟨[], blank_nil, rfl⟩
  | .map (e :: l) => ⟨_, mapText_spaced (e :: l), rfl⟩
  | .pairs [] => ⟨[], blank_nil, rfl⟩
  | .pairs (e :: l) => ⟨_, pairsText_spaced (e :: l), rfl⟩
  | .nil => rfl
  | .bool _ => rfl
  | .str _ => rfl
  | .int _ => rfl
  | .float _ => rfl
  | .digits _ => rfl
  | .time _ => rfl
  | .dur _ => rfl
theorem listText_spaced {X : Ext} : ∀ (l : List (Node X)), Node.listSpaced l (Node.listText l)
  | [] => rfl
  | [n] => ⟨[], n.text, [], blank_nil, text_spaced n, blank_nil, by simp [Node.listText]⟩
  | n :: m :: l => ⟨[], n.text, [], _, blank_nil, text_spaced n, blank_nil, listText_spaced (m :: l), by simp [Node.listText]⟩
theorem mapText_spaced {X : Ext} : ∀ (l : List (Str × Node X)), Node.mapSpaced l (Node.mapText l)
  | [] => rfl
  | [(k, n)] => ⟨[], [], [], n.text, [], blank_nil, blank_nil, blank_nil, text_spaced n, blank_nil, by simp [Node.mapText]⟩
  | (k, n) :: m :: l => ⟨[], [], [], n.text, [], _, blank_nil, blank_nil, blank_nil, text_spaced n, blank_nil, mapText_spaced (m :: l), by simp [Node.mapText]⟩
theorem pairsText_spaced {X : Ext} : ∀ (l : List ((Str × Str) × Node X)), Node.pairsSpaced l (Node.pairsText l)
  | [] => rfl
  | [((_, k), n)] => ⟨[], [], [], n.text, [], blank_nil, blank_nil, blank_nil, text_spaced n, blank_nil, by simp [Node.pairsText]⟩
  | ((_, k), n) :: m :: l => ⟨[], [], [], n.text, [], _, blank_nil, blank_nil, blank_nil, text_spaced n, blank_nil, pairsText_spaced (m :: l), by simp [Node.pairsText]⟩
end

mutual
theorem indented_spaced {X : Ext} (k : Nat) : ∀ (n : Node X), n.Spaced (n.indented k)
  | .list [] => ⟨[], blank_nil, rfl⟩
  | .list (n :: l) => ⟨_, listIndented_spaced k (n :: l), rfl⟩
  | .map [] => ⟨[], blank_nil, rfl⟩
  | .map (e :: l) => ⟨_, mapIndented_spaced k (e :: l), rfl⟩
  | .pairs [] => ⟨[], blank_nil, rfl⟩
  | .pairs (e :: l) => ⟨_, pairsIndented_spaced k (e :: l), rfl⟩
  | .nil => rfl
  | .bool _ => rfl
  | .str _ => rfl
  | .int _ => rfl
  | .float _ => rfl
  | .digits _ => rfl
  | .time _ => rfl
  | .dur _ => rfl
theorem listIndented_spaced {X : Ext} (k : Nat) : ∀ (l : List (Node X)), Node.listSpaced l (Node.listIndented k l)
  | [] => rfl
  | [n] => ⟨_, _, _, blank_newline (k + 1), indented_spaced (k + 1) n, blank_newline k, by simp [Node.listIndented]⟩
  | n :: m :: l => ⟨_, _, [], _, blank_newline (k + 1), indented_spaced (k + 1) n, blank_nil, listIndented_spaced k (m :: l), by simp [Node.listIndented]⟩
theorem mapIndented_spaced {X : Ext} (k : Nat) : ∀ (l : List (Str × Node X)), Node.mapSpaced l (Node.mapIndented k l)
  | [] => rfl
  | [(x, n)] => ⟨_, [], [' '], _, _, blank_newline (k + 1), blank_nil, blank_space, indented_spaced (k + 1) n, blank_newline k, by simp [Node.mapIndented]⟩
  | (x, n) :: m :: l => ⟨_, [], [' '], _, [], _, blank_newline (k + 1), blank_nil, blank_space, indented_spaced (k + 1) n, blank_nil, mapIndented_spaced k (m :: l), by simp [Node.mapIndented]⟩
theorem pairsIndented_spaced {X : Ext} (k : Nat) : ∀ (l : List ((Str × Str) × Node X)), Node.pairsSpaced l (Node.pairsIndented k l)
  | [] => rfl
  | [((_, x), n)] => ⟨_, [], [' '], _, _, blank_newline (k + 1), blank_nil, blank_space, indented_spaced (k + 1) n, blank_newline k, by simp [Node.pairsIndented]⟩
  | ((_, x), n) :: m :: l => ⟨_, [], [' '], _, [], _, blank_newline (k + 1), blank_nil, blank_space, indented_spaced (k + 1) n, blank_nil, pairsIndented_spaced k (m :: l), by simp [Node.pairsIndented]⟩
end

/-! ### properties -/

/-- C113: a document with white space anywhere between its tokens, before and after it, decodes as the one without. -/
theorem C113_white_space {X : Ext} (hX : Laws X) (n : Node X) (hwf : n.WF) (henc : n.encodable = true) (hd : n.depth ≤ maxDepth)
    (w s w' : Str) (hw : Blank w) (hs : n.Spaced s) (hw' : Blank w') :
    decode (w ++ s ++ w') = some (some n.norm) ∧ decode n.text = some (some n.norm) := by
  refine ⟨?_, C39_round_trip hX n hwf _ (by simp [encode, henc]) hd⟩
  obtain ⟨c, r, hc, _⟩ := spaced_head hX n henc s hs
  have hst : Stops w' := by
    have := stops_blank w' [] hw' trivial
    simpa using this
  unfold decode
  rw [if_neg (by rw [hc]; simp), List.append_assoc, parseValue_blank w hw,
    parse_spaced hX n hwf henc s hs (fuelFor (w ++ (s ++ w'))) maxDepth w' (by unfold fuelFor; simp only [List.length_append]; omega) hd hst]

/-- C113: what `JSON{Indent: true}` writes is the same document: it decodes to the same node as without indentation, and is written for the
same nodes. -/
theorem C113_indent {X : Ext} (hX : Laws X) (n : Node X) (hwf : n.WF) (hd : n.depth ≤ maxDepth) (t t' : Str)
    (h : encode n = .ok t) (h' : encodeIndent n = .ok t') : decode (X := X) t' = decode t := by
  unfold encode at h
  unfold encodeIndent at h'
  split at h
  · rename_i henc
    rw [if_pos henc] at h'
    injection h with h; injection h' with h'
    subst h h'
    have := C113_white_space hX n hwf henc hd [] _ [] blank_nil (indented_spaced 0 n) blank_nil
    rw [List.nil_append, List.append_nil] at this
    rw [this.1, this.2]
  · cases h

/-- C113: and the two succeed for the same nodes. -/
theorem C113_same_nodes {X : Ext} (n : Node X) : (∃ t, encode n = .ok t) ↔ ∃ t, encodeIndent n = .ok t := by
  unfold encode encodeIndent
  cases n.encodable <;> simp

/-- C113: the empty text is no node, without an error; white space alone is an error. -/
theorem C113_blank {X : Ext} (w : Str) (hw : Blank w) : decode (X := X) w = if w = [] then some none else none := by
  unfold decode
  split
  · rfl
  · have : parseValue (X := X) (fuelFor w) maxDepth (w ++ []) = none := by
      rw [parseValue_blank w hw]
      cases fuelFor w <;> simp [parseValue, skipWs]
    rw [List.append_nil] at this
    rw [this]

/-! ### concrete cases -/

example : encodeIndent (X := XJ) (.map [(lit "a", .list [.digits (lit "1"), .map []]), (lit "b", .str (lit "x"))]) =
    .ok (lit "{\n  \"a\": [\n    1,\n    {}\n  ],\n  \"b\": \"x\"\n}") := by decide +kernel
example : decode (X := XJ) (lit " \t{ \"a\" :[1 ,\n2] , \"b\": { } }\r\n") =
    some (some (.map [(lit "a", .list [.digits (lit "1"), .digits (lit "2")]), (lit "b", .map [])])) := by decide +kernel
example : decode (X := XJ) (lit " \n") = none := by decide +kernel

end Verif.Enc

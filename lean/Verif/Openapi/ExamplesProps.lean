import Verif.Openapi.Examples
import Verif.Enc.GoodLemmas
import Verif.Enc.TypedProps
import Verif.Enc.DecodeLemmas
/-!
# The example in the documentation is the value that was meant (C129)
-/
set_option autoImplicit false
namespace Verif.Openapi.Wire
open Verif.Strconv Verif.Enc Verif.Openapi

variable {X : Ext}

/-- A text that stands for a value written as `n`: for strings the string itself, for other scalars their JSON, for the rest anything that decodes to it. -/
def StandsFor (k : ExKind) (n : Node X) (s : Str) : Prop :=
  match k with
  | .text => n.norm = .str s
  | .bool | .int | .float => s = n.text
  | .list | .map | .node => decode s = some (some n.norm)

/-- Shapes of what is written for a type. -/
def Shape (k : ExKind) (n : Node X) : Prop :=
  n = .nil ∨ match k with
  | .bool => ∃ b, n = .bool b
  | .int => ∃ i, n = .int i ∧ -2 ^ 63 ≤ i ∧ i < 2 ^ 63
  | .float => ∃ f, n = .float f ∧ (X.fJson f).isSome = true
  | .list => ∃ l, n = .list l
  | .map => (∃ m, n = .map m) ∨ ∃ l, n = .pairs l
  | _ => True

theorem toInt_range {w : Nat} (hw : w ≤ 64) (v : BitVec w) : -2 ^ 63 ≤ v.toInt ∧ v.toInt < 2 ^ 63 := by
  have h1 := BitVec.le_toInt v
  have h2 := BitVec.toInt_lt (x := v)
  rcases Nat.eq_zero_or_pos w with h | h
  · subst h
    have : v = 0#0 := Subsingleton.elim _ _
    subst this
    decide
  · have h3 : (2 : Int) ^ (w - 1) ≤ 2 ^ 63 := by
      have : (2 : Nat) ^ (w - 1) ≤ 2 ^ 63 := Nat.pow_le_pow_right (by decide) (by omega)
      exact_mod_cast this
    omega

theorem shape (O : Order) : ∀ (t : Ty) (v : Val X t) (n : Node X), Faithful true t v → marshal O t v = .ok n → Shape (exKind t) n
  | .bool, v, n, _, h => by simp only [marshal] at h; injection h with h; subst h; exact .inr ⟨_, rfl⟩
  | .int w, v, n, _, h => by
    simp only [marshal] at h; injection h with h; subst h
    refine .inr ⟨_, rfl, toInt_range ?_ _⟩
    cases w <;> decide
  | .uint w, v, n, _, h => by
    simp only [marshal] at h; injection h with h; subst h
    exact .inr ⟨_, rfl, toInt_range (by decide) _⟩
  | .float64, v, n, hf, h => by simp only [marshal] at h; injection h with h; subst h; simp only [Faithful] at hf; exact .inr ⟨_, rfl, hf trivial⟩
  | .float32, v, n, hf, h => by simp only [marshal] at h; injection h with h; subst h; simp only [Faithful] at hf; exact .inr ⟨_, rfl, hf.2 trivial⟩
  | .string, _, _, _, _ | .time, _, _, _, _ | .encTime, _, _, _, _ | .encDur, _, _, _, _ | .any, _, _, _, _ | .node, _, _, _, _ | .iface, _, _, _, _ => .inr trivial
  | .func, _, _, _, _ | .chan, _, _, _, _ => .inr trivial
  | .ptr t, v, n, hf, h => by
    match v, hf, h with
    | none, hf, h =>
      simp only [marshal] at h
      split at h
      · cases h
      · injection h with h; exact .inl h.symm
    | some x, hf, h =>
      simp only [Faithful] at hf
      simp only [marshal] at h
      rcases ptrFix_ok t _ n h with h | ⟨y, hy, hm, ht⟩
      · exact shape O t x n hf.1 h
      · subst ht; exact .inr trivial
  | .slice t, v, n, hf, h => by
    simp only [exKind]
    split
    · exact .inr trivial
    · match v, h with
      | none, h => simp only [marshal] at h; injection h with h; exact .inl h.symm
      | some l, h =>
        simp only [marshal] at h
        obtain ⟨ns, hns, h⟩ := bind_ok h
        injection h with h; exact .inr ⟨_, h.symm⟩
  | .array k t, v, n, hf, h => by
    simp only [marshal] at h
    obtain ⟨ns, hns, h⟩ := bind_ok h
    injection h with h; exact .inr ⟨_, h.symm⟩
  | .map k t, v, n, hf, h => by
    match v, h with
    | none, h => simp only [marshal] at h; injection h with h; exact .inl h.symm
    | some m, h =>
      simp only [marshal] at h
      obtain ⟨ns, hns, h⟩ := bind_ok h
      injection h with h; exact .inr (.inl ⟨_, h.symm⟩)
  | .struct fs, v, n, hf, h => by
    simp only [marshal] at h
    obtain ⟨ns, hns, h⟩ := bind_ok h
    injection h with h; exact .inr (.inr ⟨_, h.symm⟩)

theorem emptyNode_norm_str (n : Node X) (s : Str) (h : n.norm = .str s) (hs : s ≠ []) : emptyNode n.norm = false := by
  rw [h]; simp [emptyNode, hs]

/-- Can be encoded and decoded. -/
def Sound (m : Node X) : Prop := m.encodable = true ∧ m.WF ∧ m.depth ≤ maxDepth

theorem leaf_sound (m : Node X) (h1 : m.encodable = true) (h2 : m.WF) (h3 : m.depth = 0) : Sound m := ⟨h1, h2, by rw [h3]; decide⟩

/-- What is read for the example is written like the value. -/
theorem read_ok (hX : Laws X) (k : ExKind) (n : Node X) (s : Str) (hs : Shape k n) (hw : StandsFor k n s) (hn : n ≠ .nil) :
    ∃ m, readExample k s = .ok m ∧ m.norm = n.norm ∧ Sound m ∧ (m = n ∨ m = n.norm) := by
  have decoded : ∀ m : Node X, decode s = some (some m) → marshalNode m = .ok m ∧ m.norm = m ∧ Sound m := by
    intro m hm
    obtain ⟨h1, h2, h3, h4⟩ := decode_decoded s m hm
    exact ⟨marshalNode_plain hX m h2 h1 h3 h4, norm_plain m h1, h3, h2, h4⟩
  have hs := hs.resolve_left hn
  cases k with
  | text =>
    simp only [StandsFor] at hw
    exact ⟨.str s, rfl, by rw [hw]; rfl, leaf_sound _ rfl trivial rfl, .inr hw.symm⟩
  | bool =>
    obtain ⟨b, rfl⟩ := hs
    simp only [StandsFor] at hw
    subst hw
    refine ⟨.bool b, ?_, rfl, leaf_sound _ rfl trivial rfl, .inl rfl⟩
    cases b <;> rfl
  | int =>
    obtain ⟨i, rfl, h1, h2⟩ := hs
    simp only [StandsFor, Node.text] at hw
    subst hw
    exact ⟨.int i, by simp only [readExample, parseInt_fmtInt i h1 h2], rfl, leaf_sound _ rfl trivial rfl, .inl rfl⟩
  | float =>
    obtain ⟨f, rfl, h1⟩ := hs
    obtain ⟨t, ht⟩ := Option.isSome_iff_exists.1 h1
    simp only [StandsFor, Node.text, ht, Option.getD_some] at hw
    subst hw
    exact ⟨.float f, by simp only [readExample, hX.fParse_fJson f s ht], rfl, leaf_sound _ h1 trivial rfl, .inl rfl⟩
  | list =>
    obtain ⟨l, rfl⟩ := hs
    simp only [StandsFor, Node.norm] at hw
    obtain ⟨h1, h2, h3⟩ := decoded _ hw
    exact ⟨_, by simp only [readExample, hw]; exact h1, h2, h3, .inr rfl⟩
  | map =>
    simp only [StandsFor] at hw
    obtain ⟨h1, h2, h3⟩ := decoded _ hw
    have : ∃ m, n.norm = .map m := by
      rcases hs with ⟨m, rfl⟩ | ⟨l, rfl⟩
      · exact ⟨_, rfl⟩
      · exact ⟨_, rfl⟩
    obtain ⟨m, hm⟩ := this
    rw [hm] at hw h1 h2 h3 ⊢
    exact ⟨.map m, by simp only [readExample, hw]; exact h1, h2, h3, .inr rfl⟩
  | node =>
    simp only [StandsFor] at hw
    obtain ⟨h1, h2, h3⟩ := decoded _ hw
    exact ⟨n.norm, by simp only [readExample, hw]; exact h1, h2, h3, .inr rfl⟩

/-- **C129.** If the tag stands for a value, then the document has an example, it can be encoded, and it reads back as the value; unless the value is written as null, zero or the
empty string. -/
theorem C129_shown_partial (hX : Laws X) (O O' : Order) (H : Handler X) (t : Ty) (v : Val X t) (n : Node X) (tag : Str) (hf : Faithful true t v) (hm : marshal O t v = .ok n)
    (hw : StandsFor (exKind t) n (trim tag)) (hne : trim tag ≠ []) (he : emptyNode n = false) (he' : emptyNode n.norm = false) :
    ∃ (m : Node X) (s : Str), shown t tag = .ok (some m) ∧ encode m = .ok s ∧ unmarshalJSON H O' t s (zero X t) = .done v := by
  have hn : n ≠ .nil := by intro h; subst h; cases he
  obtain ⟨m, h1, h2, h3, h4⟩ := read_ok hX (exKind t) n (trim tag) (shape O t v n hf hm) hw hn
  have hem : emptyNode m = false := by rcases h4 with rfl | rfl <;> assumption
  obtain ⟨n', hm', hu⟩ := round hX true O O' H t v hf
  rw [hm] at hm'
  injection hm' with hm'
  subst hm'
  have henc : encode m = .ok m.text := by unfold encode; rw [if_pos h3.1]
  refine ⟨m, m.text, ?_, henc, ?_⟩
  · simp only [shown, if_neg hne, h1, Res.bind, hem]; rfl
  · unfold unmarshalJSON
    rw [C39_round_trip hX m h3.2.1 m.text henc h3.2.2, h2]
    exact hu

/-- **C129, violated.** Zeros are not shown. -/
theorem C129_zero_violated (w : Width) : shown (X := X) (.int w) (lit "0") = .ok none := by
  rfl

/-- **C129, violated.** The largest unsigned number is shown as a string, and is refused when it is sent as one. -/
theorem C129_unsigned_violated (H : Handler X) (O : Order) (old : Val X (.uint .w64)) : shown (X := X) (.uint .w64) (lit "18446744073709551615") = .ok (some (.str (lit "18446744073709551615"))) ∧
    (unmarshal H O (.uint .w64) (.str (lit "18446744073709551615") : Node X) old).st = .err := by
  refine ⟨?_, rfl⟩
  have h : parseInt (lit "18446744073709551615") = none := by decide
  have h' : trim (lit "18446744073709551615") = lit "18446744073709551615" := by decide
  simp only [shown, h', exKind, readExample, h]
  rfl

/-- **C129, violated.** An example that is no value of the type is shown as if it was one. -/
theorem C129_range_violated (O : Order) : shown (X := X) (.int .w8) (lit "300") = .ok (some (.int 300)) ∧ ∀ v : Val X (.int .w8), marshal O (.int .w8) v ≠ .ok (.int 300) := by
  refine ⟨rfl, ?_⟩
  intro v h
  simp only [marshal] at h
  injection h with h
  injection h with h
  have := BitVec.toInt_lt (x := (v : BitVec 8))
  change BitVec.toInt (v : BitVec 8) = 300 at h
  rw [h] at this
  exact absurd this (by decide)

/-- **C129, violated.** What follows the first value is ignored. -/
theorem C129_trailing_violated (hX : Laws X) (t : Ty) (ht : isByte t = false) : shown (X := X) (.slice t) (lit "[1] oops") = .ok (some (.list [.digits (lit "1")])) := by
  have h : decode (X := X) (lit "[1] oops") = some (some (.list [.digits (lit "1")])) :=
    C72_violated hX (.list [.digits (lit "1")]) (by simp [Node.WF, Node.listWF]) (lit "[1]") (lit "oops") (by rfl) (by simp [Node.depth, Node.listDepth, maxDepth])
  have h' : trim (lit "[1] oops") = lit "[1] oops" := by decide
  simp only [shown, h', exKind, ht, Bool.false_eq_true, if_false, readExample, h]
  rfl

/-- **C129, violated.** An example that is not a number, or not finite, is shown by a document that can not be encoded: `Encode` panics, for the whole document. -/
theorem C129_nan_violated (tag : Str) (f : X.F) (ht : trim tag ≠ []) (hp : X.fParse (trim tag) = some f) (hf : X.fJson f = none) (hz : X.fIsZero f = false)
    (k : Str × Str) (a b : List ((Str × Str) × Node X)) :
    shown .float64 tag = .ok (some (.float f)) ∧ ∃ p, encode (.pairs (a ++ (k, .float f) :: b)) = .error p := by
  refine ⟨?_, ?_⟩
  · simp only [shown, if_neg ht, exKind, readExample, hp, Res.bind, emptyNode, hz]; rfl
  · have : Node.pairsEncodable (a ++ (k, .float f) :: b) = false := by
      induction a with
      | nil => simp [Node.pairsEncodable, Node.encodable, hf]
      | cons e a ih => simp only [List.cons_append, Node.pairsEncodable, ih, Bool.and_false]
    simp only [encode, Node.encodable, this, Bool.false_and, Bool.false_eq_true, if_false]
    exact ⟨_, rfl⟩

/-- **C129, violated.** The example `null` of a pointer to a struct is shown as a string. -/
theorem C129_null_violated (fs : Fields) : shown (X := X) (.ptr (.struct fs)) (lit "null") = .ok (some (.str (lit "null"))) := by
  rfl

/-- An example of an array, with white space around it. -/
example (hX : Laws X) (O : Order) (H : Handler X) :
    ∃ (m : Node X) (s : Str), shown (.array 2 (.int .w64)) (lit " [1,2]\n") = .ok (some m) ∧ encode m = .ok s ∧
      unmarshalJSON H O (.array 2 (.int .w64)) s (zero X _) = .done (⟨[(1#64 : BitVec 64), (2#64 : BitVec 64)], rfl⟩ : { l : List (BitVec 64) // l.length = 2 }) := by
  refine C129_shown_partial hX O O H (.array 2 (.int .w64)) _ (.list [.int 1, .int 2]) _ ?_ rfl ?_ (by decide) rfl rfl
  · simp only [Faithful]; exact fun _ _ => trivial
  · have h' : trim (lit " [1,2]\n") = lit "[1,2]" := by decide
    rw [h']
    simp only [exKind, StandsFor]
    have h1 : fmtInt 1 = lit "1" := by simp [fmtInt, fmtNat]; rfl
    have h2 : fmtInt 2 = lit "2" := by simp [fmtInt, fmtNat]; rfl
    exact C39_round_trip hX (.list [.int 1, .int 2]) (by simp [Node.WF, Node.listWF]) _
      (by simp only [encode, Node.encodable, Node.listEncodable, Node.text, Node.listText, h1, h2]; rfl) (by simp [Node.depth, Node.listDepth, maxDepth])

/-- The characters Unicode calls white space. -/
def spaces : List Nat := [9, 10, 11, 12, 13, 0x20, 0x85, 0xA0, 0x1680, 0x2000, 0x2001, 0x2002, 0x2003, 0x2004, 0x2005, 0x2006, 0x2007, 0x2008, 0x2009, 0x200a, 0x2028, 0x2029, 0x202f, 0x205f, 0x3000]

theorem isSpace_iff (c : Char) : isSpace c = true ↔ c.toNat ∈ spaces := by
  simp only [isSpace, spaces, List.mem_cons, List.not_mem_nil, or_false, Bool.or_eq_true, Bool.and_eq_true, decide_eq_true_eq, beq_iff_eq]
  omega

/-- C129: the white space around an example, and nothing else, is dropped. -/
theorem C129_trim (s : Str) : ∃ a b, s = a ++ trim s ++ b ∧ (∀ c ∈ a ++ b, c.toNat ∈ spaces) ∧ (∀ c, (trim s).head? = some c → c.toNat ∉ spaces) ∧
    ∀ c, (trim s).getLast? = some c → c.toNat ∉ spaces := by
  have hd : ∀ (l : Str) c, (l.dropWhile isSpace).head? = some c → c.toNat ∉ spaces := by
    intro l
    induction l with
    | nil => intro c h; cases h
    | cons x l ih =>
      intro c h
      rw [List.dropWhile_cons] at h
      split at h
      · exact ih c h
      · rename_i hx; injection h with h; subst h; rwa [← isSpace_iff]
  have ht : ∀ (l : Str), ∀ c ∈ l.takeWhile isSpace, c.toNat ∈ spaces := by
    intro l c hc
    rw [← isSpace_iff]
    induction l with
    | nil => cases hc
    | cons x l ih =>
      rw [List.takeWhile_cons] at hc
      split at hc
      · rcases List.mem_cons.1 hc with rfl | hc
        · assumption
        · exact ih hc
      · cases hc
  let m := s.dropWhile isSpace
  have h1 : s = s.takeWhile isSpace ++ m := List.takeWhile_append_dropWhile.symm
  have h2 : m = trim s ++ (m.reverse.takeWhile isSpace).reverse := by
    have := congrArg List.reverse (List.takeWhile_append_dropWhile (p := isSpace) (l := m.reverse))
    rw [List.reverse_append, List.reverse_reverse] at this
    exact this.symm
  refine ⟨s.takeWhile isSpace, (m.reverse.takeWhile isSpace).reverse, ?_, ?_, ?_, ?_⟩
  · rw [List.append_assoc, ← h2, ← h1]
  · intro c hc
    rcases List.mem_append.1 hc with hc | hc
    · exact ht _ c hc
    · exact ht _ c (List.mem_reverse.1 hc)
  · intro c hc
    refine hd s c ?_
    show m.head? = some c
    rw [h2]
    cases he : trim s with
    | nil => rw [he] at hc; cases hc
    | cons x l => rw [he] at hc; exact hc
  · intro c hc
    refine hd m.reverse c ?_
    have e : trim s = (m.reverse.dropWhile isSpace).reverse := rfl
    rwa [e, List.getLast?_reverse] at hc

example : trim (lit " \t a b\n") = lit "a b" := by decide

end Verif.Openapi.Wire

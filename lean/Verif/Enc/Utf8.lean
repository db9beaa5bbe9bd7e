import Verif.Prom.Quote
/-!
# UTF-8: from the bytes of a Go string to its runes (C176)

`utf8.DecodeRune` with its tables (`first`, `acceptRanges`), which `range` over a string, `encoding/json` and `strconv.Quote` use. Called through enc/json.go L49-86,
utils/prom/labels.go L8-20, and `utf8.Valid` in test/util.go L91.
-/
set_option autoImplicit false
namespace Verif.Utf8
open Verif.Prom

/-- Bytes of a string: enc/json.go L49-86. -/
abbrev Bytes := List UInt8

/-- Is `b` in the range? `acceptRange` in `unicode/utf8`, for enc/json.go L49-86. -/
def within (lo hi : Nat) (b : UInt8) : Bool := decide (lo ≤ b.toNat ∧ b.toNat ≤ hi)

/-- `utf8.DecodeRune` of a non-empty string: the rune and the number of bytes after the first one; `none`: `RuneError` with width 1. For enc/json.go L49-86. -/
def decodeRune (b0 : UInt8) (r : Bytes) : Option (Char × Nat) :=
  let x := b0.toNat
  if x < 0x80 then some (Char.ofNat x, 0)
  else if x < 0xC2 then none
  else if x < 0xE0 then
    match r with
    | b1 :: _ => if within 0x80 0xBF b1 then some (Char.ofNat (x % 32 * 64 + b1.toNat % 64), 1) else none
    | _ => none
  else if x < 0xF0 then
    match r with
    | b1 :: b2 :: _ =>
      if within (if x = 0xE0 then 0xA0 else 0x80) (if x = 0xED then 0x9F else 0xBF) b1 && within 0x80 0xBF b2 then
        some (Char.ofNat (x % 16 * 4096 + b1.toNat % 64 * 64 + b2.toNat % 64), 2)
      else none
    | _ => none
  else if x < 0xF5 then
    match r with
    | b1 :: b2 :: b3 :: _ =>
      if within (if x = 0xF0 then 0x90 else 0x80) (if x = 0xF4 then 0x8F else 0xBF) b1 && within 0x80 0xBF b2 && within 0x80 0xBF b3 then
        some (Char.ofNat (x % 8 * 262144 + b1.toNat % 64 * 4096 + b2.toNat % 64 * 64 + b3.toNat % 64), 3)
      else none
    | _ => none
  else none

/-- An invalid byte (all bytes below 0x80 are runes). For enc/json.go L49-86. -/
def bad (b : UInt8) : Elt := if h : 0x80 ≤ b.toNat then .bad b.toNat h b.toNat_lt else .rune (Char.ofNat b.toNat)

/-- What `range` over a string yields; `skip` bytes belong to the rune before. For enc/json.go L49-86, utils/prom/labels.go L8-20. -/
def eltsFrom : Nat → Bytes → GoStr
  | _, [] => []
  | k + 1, _ :: r => eltsFrom k r
  | 0, b :: r =>
    match decodeRune b r with
    | some (c, k) => .rune c :: eltsFrom k r
    | none => bad b :: eltsFrom 0 r

/-- What `range` over a string yields. For enc/json.go L49-86, utils/prom/labels.go L8-20. -/
def elts (b : Bytes) : GoStr := eltsFrom 0 b

/-- `utf8.Valid` (test/util.go L91). -/
def valid (b : Bytes) : Bool := (elts b).all fun e => match e with | .rune _ => true | .bad _ _ _ => false

/-- The string as text: what is invalid is U+FFFD. For enc/json.go L49-86. -/
def runes (b : Bytes) : List Char := (elts b).map fun e => match e with | .rune c => c | .bad _ _ _ => Char.ofNat 0xFFFD

/-! ### specification -/

/-- The bytes of a text in UTF-8. -/
def utf8 (s : List Char) : Bytes := s.flatMap String.utf8EncodeChar

/-- The bytes an element stands for. -/
def eltBytes : Elt → Bytes
  | .rune c => String.utf8EncodeChar c
  | .bad b _ _ => [UInt8.ofNat b]

/-- The bytes the elements stand for. -/
def bytesOf (g : GoStr) : Bytes := g.flatMap eltBytes

/-! ### lemmas -/

theorem char_eq (c : Char) (n : Nat) (h : n = c.toNat) : Char.ofNat n = c := by
  subst h; exact Char.ofNat_toNat c

theorem char_valid (c : Char) : c.toNat < 0xD800 ∨ (0xDFFF < c.toNat ∧ c.toNat < 0x110000) := c.valid

theorem toNat_ofNat (n : Nat) (h : n < 0xD800 ∨ (0xDFFF < n ∧ n < 0x110000)) : (Char.ofNat n).toNat = n := by
  have : n.isValidChar := h
  simp [Char.ofNat, this, Char.toNat, Char.ofNatAux, UInt32.toNat]

theorem byte_toNat (n : Nat) (h : n < 256) : (UInt8.ofNat n).toNat = n := by
  rw [UInt8.toNat_ofNat']; exact Nat.mod_eq_of_lt h

theorem byte_eq (b : UInt8) (n : Nat) (h : b.toNat = n) : UInt8.ofNat n = b := by
  subst h; exact UInt8.ofNat_toNat

theorem within_true {lo hi : Nat} {b : UInt8} (h : lo ≤ b.toNat ∧ b.toNat ≤ hi) : within lo hi b = true := decide_eq_true h

theorem encode_eq (c : Char) : String.utf8EncodeChar c =
    if c.toNat ≤ 0x7f then [UInt8.ofNat c.toNat]
    else if c.toNat ≤ 0x7ff then [UInt8.ofNat (c.toNat / 64 % 0x20 + 0xc0), UInt8.ofNat (c.toNat % 0x40 + 0x80)]
    else if c.toNat ≤ 0xffff then [UInt8.ofNat (c.toNat / 4096 % 0x10 + 0xe0), UInt8.ofNat (c.toNat / 64 % 0x40 + 0x80), UInt8.ofNat (c.toNat % 0x40 + 0x80)]
    else [UInt8.ofNat (c.toNat / 262144 % 0x08 + 0xf0), UInt8.ofNat (c.toNat / 4096 % 0x40 + 0x80), UInt8.ofNat (c.toNat / 64 % 0x40 + 0x80), UInt8.ofNat (c.toNat % 0x40 + 0x80)] := rfl

/-- The bytes of a rune decode to it. -/
theorem decode_encode (c : Char) (r : Bytes) : ∃ b t, String.utf8EncodeChar c = b :: t ∧ decodeRune b (t ++ r) = some (c, t.length) := by
  have hv := char_valid c
  rw [encode_eq]
  by_cases h1 : c.toNat ≤ 0x7f
  · rw [if_pos h1]
    refine ⟨_, _, rfl, ?_⟩
    simp only [decodeRune, byte_toNat c.toNat (by omega)]
    rw [if_pos (by omega), char_eq c _ rfl]; rfl
  rw [if_neg h1]
  by_cases h2 : c.toNat ≤ 0x7ff
  · rw [if_pos h2]
    refine ⟨_, _, rfl, ?_⟩
    simp only [decodeRune, List.cons_append, List.nil_append]
    rw [byte_toNat _ (by omega)]
    rw [if_neg (by omega), if_neg (by omega), if_pos (by omega), if_pos (within_true (by rw [byte_toNat _ (by omega)]; omega)), byte_toNat _ (by omega),
      char_eq c _ (by omega)]; rfl
  rw [if_neg h2]
  by_cases h3 : c.toNat ≤ 0xffff
  · rw [if_pos h3]
    refine ⟨_, _, rfl, ?_⟩
    simp only [decodeRune, List.cons_append, List.nil_append]
    rw [byte_toNat _ (by omega)]
    rw [if_neg (by omega), if_neg (by omega), if_neg (by omega), if_pos (by omega), if_pos, byte_toNat (_ / 64 % _ + _) (by omega), byte_toNat (c.toNat % _ + _) (by omega),
      char_eq c _ (by omega)]
    · rfl
    · rw [Bool.and_eq_true]
      refine ⟨within_true ?_, within_true ?_⟩ <;> rw [byte_toNat _ (by omega)] <;> (try split) <;> (try split) <;> omega
  · rw [if_neg h3]
    refine ⟨_, _, rfl, ?_⟩
    simp only [decodeRune, List.cons_append, List.nil_append]
    rw [byte_toNat _ (by omega)]
    rw [if_neg (by omega), if_neg (by omega), if_neg (by omega), if_neg (by omega), if_pos (by omega), if_pos, byte_toNat (_ / 4096 % _ + _) (by omega), byte_toNat (_ / 64 % _ + _) (by omega),
      byte_toNat (c.toNat % _ + _) (by omega), char_eq c _ (by omega)]
    · rfl
    · rw [Bool.and_eq_true, Bool.and_eq_true]
      refine ⟨⟨within_true ?_, within_true ?_⟩, within_true ?_⟩ <;> rw [byte_toNat _ (by omega)] <;> (try split) <;> (try split) <;> omega

/-- What decodes to a rune are the bytes of it. -/
theorem encode_decode (b : UInt8) (r : Bytes) (c : Char) (k : Nat) (h : decodeRune b r = some (c, k)) : String.utf8EncodeChar c = b :: r.take k ∧ k ≤ r.length := by
  have hb := b.toNat_lt
  unfold decodeRune at h
  simp only [] at h
  split at h
  · rename_i h0
    simp only [Option.some.injEq, Prod.mk.injEq] at h
    obtain ⟨rfl, rfl⟩ := h
    refine ⟨?_, Nat.zero_le _⟩
    rw [encode_eq, toNat_ofNat _ (by omega), if_pos (by omega), byte_eq b _ rfl]; rfl
  split at h
  · cases h
  split at h
  · split at h
    · rename_i b1 r'
      split at h
      · rename_i hw
        have hw := of_decide_eq_true hw
        simp only [Option.some.injEq, Prod.mk.injEq] at h
        obtain ⟨rfl, rfl⟩ := h
        refine ⟨?_, by simp⟩
        rw [encode_eq, toNat_ofNat _ (by omega), if_neg (by omega), if_pos (by omega), byte_eq b _ (by omega), byte_eq b1 _ (by omega)]; rfl
      · cases h
    · cases h
  split at h
  · split at h
    · rename_i b1 b2 r'
      · simp only [Option.ite_none_right_eq_some, Bool.and_eq_true, within, decide_eq_true_eq, Option.some.injEq, Prod.mk.injEq] at h
        obtain ⟨hw, rfl, rfl⟩ := h
        obtain ⟨hw1, hw2⟩ := hw
        refine ⟨?_, by simp⟩
        have ho : 0x800 ≤ b.toNat % 16 * 4096 + b1.toNat % 64 * 64 + b2.toNat % 64 := by split at hw1 <;> split at hw1 <;> omega
        have ho2 : ¬ (0xD800 ≤ b.toNat % 16 * 4096 + b1.toNat % 64 * 64 + b2.toNat % 64 ∧ b.toNat % 16 * 4096 + b1.toNat % 64 * 64 + b2.toNat % 64 ≤ 0xDFFF) := by
          split at hw1 <;> split at hw1 <;> omega
        have hb1 : 0x80 ≤ b1.toNat ∧ b1.toNat ≤ 0xBF := by split at hw1 <;> split at hw1 <;> omega
        rw [encode_eq, toNat_ofNat _ (by omega), if_neg (by omega), if_neg (by omega), if_pos (by omega), byte_eq b _ (by omega), byte_eq b1 _ (by omega), byte_eq b2 _ (by omega)]; rfl
    · cases h
  split at h
  · split at h
    · rename_i b1 b2 b3 r'
      · simp only [Option.ite_none_right_eq_some, Bool.and_eq_true, within, decide_eq_true_eq, Option.some.injEq, Prod.mk.injEq] at h
        obtain ⟨hw, rfl, rfl⟩ := h
        obtain ⟨⟨hw1, hw2⟩, hw3⟩ := hw
        refine ⟨?_, by simp⟩
        have ho : 0x10000 ≤ b.toNat % 8 * 262144 + b1.toNat % 64 * 4096 + b2.toNat % 64 * 64 + b3.toNat % 64 := by split at hw1 <;> split at hw1 <;> omega
        have ho2 : b.toNat % 8 * 262144 + b1.toNat % 64 * 4096 + b2.toNat % 64 * 64 + b3.toNat % 64 < 0x110000 := by split at hw1 <;> split at hw1 <;> omega
        have hb1 : 0x80 ≤ b1.toNat ∧ b1.toNat ≤ 0xBF := by split at hw1 <;> split at hw1 <;> omega
        rw [encode_eq, toNat_ofNat _ (by omega), if_neg (by omega), if_neg (by omega), if_neg (by omega), byte_eq b _ (by omega), byte_eq b1 _ (by omega), byte_eq b2 _ (by omega),
          byte_eq b3 _ (by omega)]; rfl
    · cases h
  · cases h

theorem eltsFrom_skip : ∀ (k : Nat) (t r : Bytes), t.length = k → eltsFrom k (t ++ r) = eltsFrom 0 r
  | 0, [], _, _ => rfl
  | k + 1, _ :: t, r, h => by
    show eltsFrom k (t ++ r) = _
    exact eltsFrom_skip k t r (by simpa using h)

theorem elts_cons (b : UInt8) (r : Bytes) : elts (b :: r) = match decodeRune b r with
    | some (c, k) => .rune c :: elts (r.drop k)
    | none => bad b :: elts r := by
  unfold elts
  rw [eltsFrom]
  cases h : decodeRune b r with
  | none => rfl
  | some p =>
    obtain ⟨c, k⟩ := p
    have hk := (encode_decode b r c k h).2
    show Elt.rune c :: eltsFrom k r = Elt.rune c :: eltsFrom 0 (r.drop k)
    congr 1
    have := eltsFrom_skip k (r.take k) (r.drop k) (by rw [List.length_take]; omega)
    rwa [List.take_append_drop] at this

theorem elts_rune (c : Char) (r : Bytes) : elts (String.utf8EncodeChar c ++ r) = .rune c :: elts r := by
  obtain ⟨b, t, h1, h2⟩ := decode_encode c r
  rw [h1, List.cons_append, elts_cons, h2]
  simp

theorem bad_bytes (b : UInt8) (h : decodeRune b [] = none ∨ 0x80 ≤ b.toNat) : eltBytes (bad b) = [b] := by
  have hb : 0x80 ≤ b.toNat := by
    rcases h with h | h
    · unfold decodeRune at h
      simp only [] at h
      split at h
      · cases h
      · omega
    · exact h
  unfold bad
  rw [dif_pos hb]
  show [UInt8.ofNat b.toNat] = [b]
  rw [byte_eq b _ rfl]

theorem decode_none (b : UInt8) (r : Bytes) (h : decodeRune b r = none) : 0x80 ≤ b.toNat := by
  unfold decodeRune at h
  simp only [] at h
  split at h
  · cases h
  · omega

/-! ### C176: bytes and elements -/

/-- C176: a string is what its runes and invalid bytes stand for; so two strings with the same elements are the same, and what is proved of all `GoStr` is proved of all strings. -/
theorem C176_bytes : ∀ b : Bytes, bytesOf (elts b) = b := by
  intro b
  generalize hn : b.length = n
  induction n using Nat.strongRecOn generalizing b with
  | ind n ih =>
    cases b with
    | nil => rfl
    | cons b r =>
      rw [elts_cons]
      cases h : decodeRune b r with
      | none =>
        show eltBytes (bad b) ++ bytesOf (elts r) = _
        rw [bad_bytes b (.inr (decode_none b r h)), ih r.length (by simp at hn; omega) r rfl]; rfl
      | some p =>
        obtain ⟨c, k⟩ := p
        obtain ⟨h1, h2⟩ := encode_decode b r c k h
        show String.utf8EncodeChar c ++ bytesOf (elts (r.drop k)) = _
        rw [h1, ih (r.drop k).length (by simp at hn ⊢; omega) _ rfl]
        simp

/-- The elements of a text in UTF-8 are its characters. -/
theorem C176_utf8 (s : List Char) : elts (utf8 s) = s.map .rune ∧ runes (utf8 s) = s ∧ valid (utf8 s) = true := by
  have h : elts (utf8 s) = s.map .rune := by
    induction s with
    | nil => rfl
    | cons c s ih => show elts (String.utf8EncodeChar c ++ utf8 s) = _; rw [elts_rune, ih]; rfl
  refine ⟨h, ?_, ?_⟩
  · unfold runes; rw [h, List.map_map]; exact List.map_id s
  · unfold valid; rw [h]; simp

/-- The valid strings are the texts in UTF-8, and reading one as text loses nothing. -/
theorem C176_valid (b : Bytes) : (valid b = true ↔ ∃ s, b = utf8 s) ∧ (valid b = true ↔ utf8 (runes b) = b) := by
  have h1 : valid b = true → utf8 (runes b) = b := by
    intro h
    have : utf8 (runes b) = bytesOf (elts b) := by
      unfold valid at h
      unfold runes utf8 bytesOf
      rw [List.flatMap_map]
      have key : ∀ g : GoStr, (g.all fun e => match e with | .rune _ => true | .bad _ _ _ => false) = true →
          (g.flatMap fun e => String.utf8EncodeChar (match e with | .rune c => c | .bad _ _ _ => Char.ofNat 0xFFFD)) = g.flatMap eltBytes := by
        intro g
        induction g with
        | nil => intro _; rfl
        | cons e g ih =>
          intro hg
          rw [List.all_cons, Bool.and_eq_true] at hg
          rw [List.flatMap_cons, List.flatMap_cons, ih hg.2]
          cases e with
          | rune c => rfl
          | bad => exact absurd hg.1 (by simp)
      exact key _ h
    rw [this, C176_bytes]
  have h2 : (∃ s, b = utf8 s) → valid b = true := by rintro ⟨s, rfl⟩; exact (C176_utf8 s).2.2
  exact ⟨⟨fun h => ⟨runes b, (h1 h).symm⟩, h2⟩, ⟨h1, fun h => h2 ⟨runes b, h.symm⟩⟩⟩

/-- C176 is violated: a string that is not valid is read as another one, which is valid; and different ones as the same. -/
theorem C176_text_violated : (∀ b, valid b = false → utf8 (runes b) ≠ b ∧ valid (utf8 (runes b)) = true) ∧
    ∀ b b' : UInt8, 0xF5 ≤ b.toNat → 0xF5 ≤ b'.toNat → runes [b] = runes [b'] := by
  refine ⟨fun b h => ⟨fun he => ?_, (C176_utf8 _).2.2⟩, ?_⟩
  · have := (C176_valid b).2.2 he
    rw [h] at this; cases this
  · have k : ∀ b : UInt8, 0xF5 ≤ b.toNat → runes [b] = [Char.ofNat 0xFFFD] := by
      intro b hb
      have : decodeRune b [] = none := by
        unfold decodeRune
        simp only []
        rw [if_neg (by omega), if_neg (by omega), if_neg (by omega), if_neg (by omega), if_neg (by omega)]
      unfold runes
      rw [elts_cons, this]
      simp only [bad]
      rw [dif_pos (by omega)]
      rfl
    intro b b' h h'
    rw [k b h, k b' h']

/-- Every list of elements is not a string: a rune may not be spelled by invalid bytes. But every string has its elements, and they have no other string. -/
example : elts (bytesOf [.bad 0xC3 (by decide) (by decide), .bad 0xA9 (by decide) (by decide)]) = [.rune 'é'] := by decide +kernel

example : elts [0x61, 0xC3, 0xA9, 0xE2, 0x82, 0xAC, 0xF0, 0x9F, 0x98, 0x80] = [.rune 'a', .rune 'é', .rune '€', .rune '😀'] := by decide +kernel

/-- Overlong forms, surrogates, values that are too large and runes cut short are invalid bytes. -/
example : (elts [0xC0, 0x80]).length = 2 ∧ (elts [0xED, 0xA0, 0x80]).length = 3 ∧ (elts [0xF4, 0x90, 0x80, 0x80]).length = 4 ∧ (elts [0xE2, 0x82]).length = 2 ∧
    valid [0xE2, 0x82] = false ∧ runes [0x61, 0xFF] = ['a', Char.ofNat 0xFFFD] := by decide +kernel

end Verif.Utf8

import Verif.Enc.JsonSpec
/-!
# Lemmas about the JSON codec
-/
set_option autoImplicit false
namespace Verif.Enc
open Verif.Strconv

/-! ### strings -/

theorem hexVal_hexDigit (n : Nat) (h : n < 16) : hexVal (Prom.hexDigit n) = some n := by
  have : ∀ n : Fin 16, hexVal (Prom.hexDigit n.val) = some n.val := by decide
  exact this ⟨n, h⟩

theorem hex4_hexN (n : Nat) (h : n < 65536) : ∃ a b c d, Prom.hexN 4 n = [a, b, c, d] ∧ hex4 a b c d = some n := by
  refine ⟨_, _, _, _, rfl, ?_⟩
  simp only [hex4]
  rw [hexVal_hexDigit _ (Nat.mod_lt _ (by omega)), hexVal_hexDigit _ (Nat.mod_lt _ (by omega)), hexVal_hexDigit _ (Nat.mod_lt _ (by omega)),
    hexVal_hexDigit _ (Nat.mod_lt _ (by omega))]
  simp only [Option.some.injEq]
  omega

theorem char_not_surrogate (c : Char) : ¬ (0xD800 ≤ c.toNat ∧ c.toNat < 0xE000) := by
  have := c.valid
  rintro ⟨h1, h2⟩
  rcases this with h | ⟨h, _⟩
  · have : c.toNat < 0xD800 := h
    omega
  · have : 0xDFFF < c.toNat := h
    omega

theorem parseStr_u (c : Char) (t : Str) (h : c.toNat < 65536) : parseStr ('\\' :: 'u' :: Prom.hexN 4 c.toNat ++ t) = consChar c (parseStr t) := by
  obtain ⟨x, y, z, w, he, hx⟩ := hex4_hexN c.toNat h
  rw [he]
  simp only [List.cons_append, List.nil_append]
  rw [parseStr]
  simp only [hx]
  have hs := char_not_surrogate c
  have hu : ofUnit c.toNat = c := by
    unfold ofUnit
    rw [if_neg hs, Char.ofNat_toNat]
  split
  · rw [if_neg (by omega), hu]
  · rw [hu]

theorem parseStr_esc (c : Char) (t : Str) : parseStr (escJson c ++ t) = consChar c (parseStr t) := by
  unfold escJson
  split
  · rename_i h; subst h
    simp only [List.cons_append, List.nil_append]
    rw [parseStr]
    · simp [unescape]
    · simp
  split
  · rename_i h; subst h
    simp only [List.cons_append, List.nil_append]
    rw [parseStr]
    · simp [unescape]
    · simp
  split
  · rename_i h
    have : c = Char.ofNat 10 := by rw [← h, Char.ofNat_toNat]
    subst this
    simp only [List.cons_append, List.nil_append]
    rw [parseStr]
    · simp [unescape]
    · simp
  split
  · rename_i h
    have : c = Char.ofNat 13 := by rw [← h, Char.ofNat_toNat]
    subst this
    simp only [List.cons_append, List.nil_append]
    rw [parseStr]
    · simp [unescape]
    · simp
  split
  · rename_i h
    have : c = Char.ofNat 9 := by rw [← h, Char.ofNat_toNat]
    subst this
    simp only [List.cons_append, List.nil_append]
    rw [parseStr]
    · simp [unescape]
    · simp
  split
  · rename_i h
    apply parseStr_u
    rcases h with h | h | h | h | h | h
    · omega
    · subst h; decide
    · subst h; decide
    · subst h; decide
    · omega
    · omega
  · rename_i h1 h2 _ _ _ h3
    simp only [List.cons_append, List.nil_append]
    rw [parseStr]
    · rw [if_neg]
      rintro (h | h)
      · exact h3 (.inl h)
      · exact h2 h
    · exact h1
    · intro a b c d r he; exact absurd he (by simp [h2])
    · intro a b he; exact absurd he (by simp [h2])

/-- Reading back a JSON string. -/
theorem parseStr_jsonStr (s t : Str) : parseStr (s.flatMap escJson ++ '"' :: t) = some (s, t) := by
  induction s with
  | nil => simp [parseStr]
  | cons c s ih =>
    simp only [List.flatMap_cons, List.append_assoc]
    rw [parseStr_esc, ih]; rfl

/-! ### numbers -/

/-- The text that follows a value does not continue a number. -/
def Stops : Str → Prop
  | [] => True
  | c :: _ => isDigit c = false ∧ c ≠ '.' ∧ c ≠ 'e' ∧ c ≠ 'E'

theorem spanDigits_append (a rest : Str) (h : Stops rest) : spanDigits (a ++ rest) = ((spanDigits a).1, (spanDigits a).2 ++ rest) := by
  induction a with
  | nil =>
    cases rest with
    | nil => rfl
    | cons c r => simp [spanDigits, h.1]
  | cons c a ih =>
    simp only [List.cons_append, spanDigits]
    split
    · simp [ih]
    · simp

theorem numInt_append (a rest i r : Str) (h : Stops rest) (hn : numInt a = some (i, r)) : numInt (a ++ rest) = some (i, r ++ rest) := by
  cases a with
  | nil => simp [numInt] at hn
  | cons c a =>
    by_cases hc : c = '0'
    · subst hc
      simp only [numInt, Option.some.injEq, Prod.mk.injEq] at hn
      obtain ⟨rfl, rfl⟩ := hn
      simp [numInt]
    · have e1 : ∀ l, numInt (c :: l) = if isDigit c then some (spanDigits (c :: l)) else none := by
        intro l; rw [numInt]; intro h; exact absurd h hc
      rw [e1] at hn
      rw [List.cons_append, e1]
      split at hn
      · rename_i hd
        rw [if_pos hd, ← List.cons_append, spanDigits_append _ _ h]
        injection hn with hn
        rw [hn]
      · cases hn

theorem numFrac_append (a rest f r : Str) (h : Stops rest) (hn : numFrac a = some (f, r)) : numFrac (a ++ rest) = some (f, r ++ rest) := by
  cases a with
  | nil =>
    simp only [numFrac, Option.some.injEq, Prod.mk.injEq] at hn
    obtain ⟨rfl, rfl⟩ := hn
    cases rest with
    | nil => rfl
    | cons c rest =>
      simp only [List.nil_append]
      rw [numFrac]
      intro r' he; injection he with he; exact h.2.1 he
  | cons c a =>
    by_cases hc : c = '.'
    · subst hc
      simp only [numFrac, List.cons_append] at hn ⊢
      rw [spanDigits_append _ _ h]
      simp only
      split at hn
      · cases hn
      · rename_i hne
        rw [if_neg hne]
        injection hn with hn; injection hn with h1 h2
        rw [h1, h2]
    · have e1 : ∀ l, numFrac (c :: l) = some ([], c :: l) := by
        intro l; rw [numFrac]; intro r' he; injection he with he; exact hc he
      rw [e1] at hn
      rw [List.cons_append, e1]
      injection hn with hn; injection hn with h1 h2
      subst h1 h2; rfl

theorem numExp_append (a rest e r : Str) (h : Stops rest) (hn : numExp a = some (e, r)) : numExp (a ++ rest) = some (e, r ++ rest) := by
  cases a with
  | nil =>
    simp only [numExp, Option.some.injEq, Prod.mk.injEq] at hn
    obtain ⟨rfl, rfl⟩ := hn
    cases rest with
    | nil => rfl
    | cons c rest =>
      simp only [List.nil_append, numExp]
      rw [if_neg]
      rintro (he | he)
      · exact h.2.2.1 he
      · exact h.2.2.2 he
  | cons c a =>
    simp only [numExp, List.cons_append] at hn ⊢
    split at hn
    · rename_i hc
      rw [if_pos hc]
      cases a with
      | nil => simp at hn
      | cons s a =>
        simp only [List.cons_append] at hn ⊢
        split at hn
        · rename_i hs
          rw [if_pos hs, spanDigits_append _ _ h]
          simp only
          split at hn
          · cases hn
          · rename_i hne
            rw [if_neg hne]
            injection hn with hn; injection hn with h1 h2
            rw [h1, h2]
        · rename_i hs
          rw [if_neg hs, ← List.cons_append, spanDigits_append _ _ h]
          simp only
          split at hn
          · cases hn
          · rename_i hne
            rw [if_neg hne]
            injection hn with hn; injection hn with h1 h2
            rw [h1, h2]
    · rename_i hc
      rw [if_neg hc]
      injection hn with hn; injection hn with h1 h2
      subst h1 h2; rfl

theorem numBody_append (sign s1 rest n r : Str) (h : Stops rest) (hk : numBody sign s1 = some (n, r)) : numBody sign (s1 ++ rest) = some (n, r ++ rest) := by
  unfold numBody at hk ⊢
  cases h1 : numInt s1 with
  | none => simp [h1] at hk
  | some p =>
    obtain ⟨i, s2⟩ := p
    rw [numInt_append s1 rest i s2 h h1]
    simp only [h1] at hk ⊢
    cases h2 : numFrac s2 with
    | none => simp [h2] at hk
    | some p =>
      obtain ⟨f, s3⟩ := p
      rw [numFrac_append s2 rest f s3 h h2]
      simp only [h2] at hk ⊢
      cases h3 : numExp s3 with
      | none => simp [h3] at hk
      | some p =>
        obtain ⟨e, s4⟩ := p
        rw [numExp_append s3 rest e s4 h h3]
        simp only [h3, Option.some.injEq, Prod.mk.injEq] at hk ⊢
        exact ⟨hk.1, by rw [hk.2]⟩

theorem parseNumber_cons (c : Char) (s : Str) (h : c ≠ '-') : parseNumber (c :: s) = numBody [] (c :: s) := by
  rw [parseNumber]
  intro r he; injection he with he; exact h he

theorem parseNumber_append (s rest n r : Str) (h : Stops rest) (hn : parseNumber s = some (n, r)) : parseNumber (s ++ rest) = some (n, r ++ rest) := by
  cases s with
  | nil => simp [parseNumber, numBody, numInt] at hn
  | cons c s =>
    by_cases hc : c = '-'
    · subst hc
      exact numBody_append ['-'] s rest n r h hn
    · rw [parseNumber_cons c s hc] at hn
      rw [List.cons_append, parseNumber_cons c _ hc, ← List.cons_append]
      exact numBody_append [] (c :: s) rest n r h hn

theorem parseNumber_of_isNumber (s rest : Str) (h : Stops rest) (hn : isNumber s = true) : parseNumber (s ++ rest) = some (s, rest) := by
  have : parseNumber s = some (s, []) := by simpa [isNumber] using hn
  simpa using parseNumber_append s rest s [] h this

theorem spanDigits_all (s : Str) (h : ∀ c ∈ s, isDigit c = true) : spanDigits s = (s, []) := by
  induction s with
  | nil => rfl
  | cons c s ih => simp [spanDigits, h c (by simp), ih (fun x hx => h x (by simp [hx]))]

theorem numInt_fmtNat (n : Nat) : numInt (fmtNat n) = some (fmtNat n, []) := by
  obtain ⟨c, cs, he, hz⟩ := fmtNat_head n
  have hd := fmtNat_digits n
  rw [he] at hd ⊢
  by_cases hc : c = '0'
  · have := (hz hc).2
    subst hc this; rfl
  · rw [numInt]
    · rw [if_pos (hd c (by simp)), spanDigits_all _ hd]
    · intro h; exact absurd h hc

/-- Formatted integers are JSON numbers. -/
theorem isNumber_fmtInt (i : Int) : isNumber (fmtInt i) = true := by
  have key : ∀ (sign : Str) (n : Nat), numBody sign (fmtNat n) = some (sign ++ fmtNat n, []) := by
    intro sign n; simp [numBody, numInt_fmtNat, numFrac, numExp]
  unfold fmtInt
  split
  · simp [isNumber, parseNumber, key]
  · obtain ⟨c, cs, he, _⟩ := fmtNat_head i.natAbs
    have hns := fmtNat_no_sign i.natAbs
    have hk := key [] i.natAbs
    rw [he] at hk hns ⊢
    have hc : c ≠ '-' := by rintro rfl; exact (hns cs).1 rfl
    rw [isNumber, parseNumber_cons c cs hc, hk]
    simp

/-- A number starts with a digit or a minus sign. -/
theorem isNumber_head (s : Str) (h : isNumber s = true) : ∃ c r, s = c :: r ∧ (isDigit c = true ∨ c = '-') := by
  have hp : parseNumber s = some (s, []) := by simpa [isNumber] using h
  cases s with
  | nil => simp [parseNumber, numBody, numInt] at hp
  | cons c r =>
    refine ⟨c, r, rfl, ?_⟩
    by_cases hc : c = '-'
    · exact .inr hc
    · left
      by_cases h0 : c = '0'
      · subst h0; rfl
      · cases hd : isDigit c with
        | true => rfl
        | false =>
          exfalso
          have hi : numInt (c :: r) = none := by
            rw [numInt]
            · simp [hd]
            · intro h; exact absurd h h0
          rw [parseNumber_cons c r hc] at hp
          simp [numBody, hi] at hp

/-! ### values -/

theorem skipWs_cons (c : Char) (r : Str) (h : isWs c = false) : skipWs (c :: r) = c :: r := by simp [skipWs, h]

theorem ws_of_digit (c : Char) (h : isDigit c = true ∨ c = '-') : isWs c = false ∧ c ≠ 'n' ∧ c ≠ 't' ∧ c ≠ 'f' ∧ c ≠ '"' ∧ c ≠ '[' ∧ c ≠ '{' ∧ c ≠ ']' ∧ c ≠ '}' := by
  have hx : ∀ d : Char, isWs d = true ∨ d = 'n' ∨ d = 't' ∨ d = 'f' ∨ d = '"' ∨ d = '[' ∨ d = '{' ∨ d = ']' ∨ d = '}' → isDigit d = false ∧ d ≠ '-' := by
    intro d hd
    rcases hd with hd | rfl | rfl | rfl | rfl | rfl | rfl | rfl | rfl
    · simp only [isWs, decide_eq_true_eq] at hd
      rcases hd with rfl | rfl | rfl | rfl <;> decide
    all_goals decide
  have hn : ¬ (isDigit c = false ∧ c ≠ '-') := by
    rintro ⟨h1, h2⟩
    rcases h with h | h
    · rw [h1] at h; cases h
    · exact h2 h
  refine ⟨?_, ?_, ?_, ?_, ?_, ?_, ?_, ?_, ?_⟩
  · cases hw : isWs c with
    | false => rfl
    | true => exact absurd (hx c (.inl hw)) hn
  all_goals (rintro rfl; exact hn (hx _ (by simp)))

theorem parseValue_number {X : Ext} (fuel d : Nat) (s rest : Str) (hs : Stops rest) (hn : isNumber s = true) :
    parseValue (X := X) (fuel + 1) d (s ++ rest) = some (.digits s, rest) := by
  obtain ⟨c, r, he, hc⟩ := isNumber_head s hn
  obtain ⟨hw, h1, h2, h3, h4, h5, h6, _, _⟩ := ws_of_digit c hc
  have hp := parseNumber_of_isNumber s rest hs hn
  rw [parseValue]
  rw [he, List.cons_append] at hp ⊢
  rw [skipWs_cons _ _ hw]
  split
  · rename_i h; cases h
  · rename_i h; injection h with h; exact absurd h h1
  · rename_i h; injection h with h; exact absurd h h2
  · rename_i h; injection h with h; exact absurd h h3
  · rename_i h; injection h with h; exact absurd h h4
  · rename_i h; injection h with h; exact absurd h h5
  · rename_i h; injection h with h; exact absurd h h6
  · rename_i h
    injection h with e1 e2
    subst e1 e2
    rw [hp]

theorem parseValue_str {X : Ext} (fuel d : Nat) (s rest : Str) : parseValue (X := X) (fuel + 1) d (jsonStr s ++ rest) = some (.str s, rest) := by
  rw [parseValue]
  simp only [jsonStr, List.cons_append, List.append_assoc, List.nil_append]
  rw [skipWs_cons _ _ (by decide)]
  simp only [parseStr_jsonStr]

/-- The first character of a value is neither white space nor a closing bracket. -/
theorem text_head {X : Ext} (hX : Laws X) (n : Node X) (h : n.encodable = true) : ∃ c r, n.text = c :: r ∧ isWs c = false ∧ c ≠ ']' ∧ c ≠ '}' := by
  have num : ∀ s : Str, isNumber s = true → ∃ c r, s = c :: r ∧ isWs c = false ∧ c ≠ ']' ∧ c ≠ '}' := by
    intro s hs
    obtain ⟨c, r, he, hc⟩ := isNumber_head s hs
    have := ws_of_digit c hc
    exact ⟨c, r, he, this.1, this.2.2.2.2.2.2.2.1, this.2.2.2.2.2.2.2.2⟩
  cases n with
  | nil => exact ⟨'n', _, rfl, by decide, by decide, by decide⟩
  | bool b => cases b <;> exact ⟨_, _, rfl, by decide, by decide, by decide⟩
  | str s => exact ⟨'"', _, rfl, by decide, by decide, by decide⟩
  | int i => exact num _ (isNumber_fmtInt i)
  | float f =>
    simp only [Node.encodable, Option.isSome_iff_exists] at h
    obtain ⟨t, ht⟩ := h
    simp only [Node.text, ht, Option.getD_some]
    exact num _ (hX.fJson_number f t ht)
  | digits s => exact num _ h
  | list l => exact ⟨'[', _, rfl, by decide, by decide, by decide⟩
  | map m => exact ⟨'{', _, rfl, by decide, by decide, by decide⟩
  | pairs l => exact ⟨'{', _, rfl, by decide, by decide, by decide⟩
  | time t => exact ⟨'"', _, rfl, by decide, by decide, by decide⟩
  | dur d =>
    simp only [Node.text]
    split <;> exact ⟨'"', _, rfl, by decide, by decide, by decide⟩

theorem stops_sep (c : Char) (r : Str) (h : c = ',' ∨ c = ']' ∨ c = '}') : Stops (c :: r) := by
  rcases h with rfl | rfl | rfl <;> exact ⟨by decide, by decide, by decide, by decide⟩

theorem mapNorm_keys {X : Ext} (m : List (Str × Node X)) (h : SortedKeys m) : SortedKeys (Node.mapNorm m) := by
  have mem : ∀ (m : List (Str × Node X)) (e : Str × Node X), e ∈ Node.mapNorm m → ∃ e0 ∈ m, e0.1 = e.1 := by
    intro m
    induction m with
    | nil => intro e he; simp [Node.mapNorm] at he
    | cons x m ih =>
      obtain ⟨k, n⟩ := x
      intro e he
      simp only [Node.mapNorm, List.mem_cons] at he
      rcases he with rfl | he
      · exact ⟨(k, n), by simp, rfl⟩
      · obtain ⟨e0, h0, h1⟩ := ih e he; exact ⟨e0, by simp [h0], h1⟩
  induction m with
  | nil => simp [Node.mapNorm, SortedKeys]
  | cons x m ih =>
    obtain ⟨k, n⟩ := x
    obtain ⟨h1, h2⟩ := List.pairwise_cons.1 h
    simp only [Node.mapNorm]
    refine List.pairwise_cons.2 ⟨?_, ih h2⟩
    intro e he
    obtain ⟨e0, h0, h3⟩ := mem m e he
    have := h1 e0 h0
    simpa [h3] using this

mutual
theorem parse_text {X : Ext} (hX : Laws X) : ∀ (n : Node X), n.WF → n.encodable = true → ∀ (fuel d : Nat) (rest : Str), 2 * n.text.length ≤ fuel →
    n.depth ≤ d → Stops rest → parseValue fuel d (n.text ++ rest) = some (n.norm, rest) := by
  intro n hwf henc fuel d rest hf hd hs
  obtain ⟨c0, r0, ht0, _⟩ := text_head hX n henc
  obtain ⟨fuel, rfl⟩ : ∃ k, fuel = k + 1 := ⟨fuel - 1, by rw [ht0] at hf; simp at hf; omega⟩
  cases n with
  | nil => rw [parseValue]; simp [Node.text, lit, skipWs, isWs, Node.norm]
  | bool b => cases b <;> (rw [parseValue]; simp [Node.text, lit, skipWs, isWs, Node.norm])
  | str s => exact parseValue_str fuel d s rest
  | int i => exact parseValue_number fuel d _ rest hs (isNumber_fmtInt i)
  | float f =>
    simp only [Node.encodable, Option.isSome_iff_exists] at henc
    obtain ⟨t, ht⟩ := henc
    simp only [Node.text, ht, Option.getD_some, Node.norm]
    exact parseValue_number fuel d _ rest hs (hX.fJson_number f t ht)
  | digits s => exact parseValue_number fuel d _ rest hs henc
  | time t => exact parseValue_str fuel d _ rest
  | dur x =>
    simp only [Node.text, Node.norm]
    by_cases hx : x = 0
    · simp only [hx, if_true]; exact parseValue_str fuel d _ rest
    · simp only [hx, if_false]; exact parseValue_str fuel d _ rest
  | list l =>
    simp only [Node.depth] at hd
    obtain ⟨d, rfl⟩ : ∃ k, d = k + 1 := ⟨d - 1, by omega⟩
    rw [parseValue]
    simp only [Node.text, List.cons_append, List.append_assoc, List.nil_append, Node.norm]
    rw [skipWs_cons _ _ (by decide)]
    cases l with
    | nil => simp [Node.listText, skipWs, isWs, Node.listNorm]
    | cons n l =>
      have hne := parse_elems hX n l hwf henc fuel d rest (by simp only [Node.text, List.length_cons, List.length_append] at hf; simp at hf; omega) (by omega)
      have hh : n.encodable = true := by simp only [Node.encodable, Node.listEncodable, Bool.and_eq_true] at henc; exact henc.1
      obtain ⟨c, r, hc, hw, hb, _⟩ := text_head hX n hh
      have hstart : ∃ r', Node.listText (n :: l) ++ ']' :: rest = c :: r' := by
        cases l with
        | nil => exact ⟨_, by simp only [Node.listText, hc]; rfl⟩
        | cons m l => exact ⟨_, by simp only [Node.listText, hc]; rfl⟩
      obtain ⟨r', hr'⟩ := hstart
      simp only
      rw [hr', skipWs_cons _ _ hw]
      rw [hr'] at hne
      split
      · rename_i he; injection he with he; exact absurd he hb
      · rw [hne]
  | map m =>
    simp only [Node.depth] at hd
    obtain ⟨d, rfl⟩ : ∃ k, d = k + 1 := ⟨d - 1, by omega⟩
    rw [parseValue]
    simp only [Node.text, List.cons_append, List.append_assoc, List.nil_append, Node.norm]
    rw [skipWs_cons _ _ (by decide)]
    cases m with
    | nil => simp [Node.mapText, skipWs, isWs, Node.mapNorm]
    | cons e m =>
      have hrec := parse_members hX e m
      obtain ⟨k, n⟩ := e
      simp only [Node.encodable, Bool.and_eq_true] at henc
      have hne := hrec hwf.2 henc.1 fuel d rest (by simp only [Node.text, List.length_cons, List.length_append] at hf; simp at hf; omega) (by omega)
      have hstart : ∃ r', Node.mapText ((k, n) :: m) ++ '}' :: rest = '"' :: r' := by
        cases m with
        | nil => exact ⟨_, by simp only [Node.mapText, jsonStr]; rfl⟩
        | cons x m => exact ⟨_, by simp only [Node.mapText, jsonStr]; rfl⟩
      obtain ⟨r', hr'⟩ := hstart
      simp only
      rw [hr', skipWs_cons _ _ (by decide)]
      rw [hr'] at hne
      split
      · rename_i he; injection he with he; exact absurd he (by decide)
      rw [hne]
      simp only
      rw [ofEntries_sorted _ (mapNorm_keys _ hwf.1)]
  | pairs l =>
    simp only [Node.depth] at hd
    obtain ⟨d, rfl⟩ : ∃ k, d = k + 1 := ⟨d - 1, by omega⟩
    rw [parseValue]
    simp only [Node.text, List.cons_append, List.append_assoc, List.nil_append, Node.norm]
    rw [skipWs_cons _ _ (by decide)]
    cases l with
    | nil => simp [Node.pairsText, skipWs, isWs, Node.pairsNorm, ofEntries]
    | cons e l =>
      have hrec := parse_pairs hX e l
      obtain ⟨⟨k0, k⟩, n⟩ := e
      simp only [Node.encodable, Bool.and_eq_true] at henc
      have hne := hrec hwf henc.1 fuel d rest (by simp only [Node.text, List.length_cons, List.length_append] at hf; simp at hf; omega) (by omega)
      have hstart : ∃ r', Node.pairsText (((k0, k), n) :: l) ++ '}' :: rest = '"' :: r' := by
        cases l with
        | nil => exact ⟨_, by simp only [Node.pairsText, jsonStr]; rfl⟩
        | cons x l => exact ⟨_, by simp only [Node.pairsText, jsonStr]; rfl⟩
      obtain ⟨r', hr'⟩ := hstart
      simp only
      rw [hr', skipWs_cons _ _ (by decide)]
      rw [hr'] at hne
      split
      · rename_i he; injection he with he; exact absurd he (by decide)
      rw [hne]
termination_by n => sizeOf n
decreasing_by all_goals (subst_vars; first | (simp; done) | (simp; omega) | omega)
theorem parse_elems {X : Ext} (hX : Laws X) : ∀ (n : Node X) (l : List (Node X)), Node.listWF (n :: l) → Node.listEncodable (n :: l) = true →
    ∀ (fuel d : Nat) (rest : Str), 2 * (Node.listText (n :: l)).length + 1 ≤ fuel →
    Node.listDepth (n :: l) ≤ d → parseElems fuel d (Node.listText (n :: l) ++ ']' :: rest) = some (Node.listNorm (n :: l), rest) := by
  intro n l hwf henc fuel d rest hf hd
  obtain ⟨fuel, rfl⟩ : ∃ k, fuel = k + 1 := ⟨fuel - 1, by omega⟩
  simp only [Node.listEncodable, Bool.and_eq_true] at henc
  simp only [Node.listDepth] at hd
  rw [parseElems]
  cases l with
  | nil =>
    simp only [Node.listText] at hf ⊢
    rw [parse_text hX n hwf.1 henc.1 fuel d (']' :: rest) (by omega) (by omega) (stops_sep _ _ (by simp))]
    simp [skipWs, isWs, Node.listNorm]
  | cons m l =>
    simp only [Node.listText, List.length_append, List.length_cons] at hf
    simp only [Node.listText, List.append_assoc, List.cons_append]
    rw [parse_text hX n hwf.1 henc.1 fuel d _ (by omega) (by omega) (stops_sep _ _ (by simp))]
    simp only
    rw [skipWs_cons _ _ (by decide)]
    simp only
    rw [parse_elems hX m l hwf.2 (by simpa [Node.listEncodable] using henc.2) fuel d rest (by omega) (by simp only [Node.listDepth] at hd ⊢; omega)]
    simp [Node.listNorm]
termination_by n l => sizeOf n + sizeOf l + 1
decreasing_by all_goals (subst_vars; first | (simp; done) | (simp; omega) | omega)
theorem parse_members {X : Ext} (hX : Laws X) : ∀ (e : Str × Node X) (m : List (Str × Node X)), Node.mapWF (e :: m) → Node.mapEncodable (e :: m) = true →
    ∀ (fuel d : Nat) (rest : Str), 2 * (Node.mapText (e :: m)).length + 1 ≤ fuel →
    Node.mapDepth (e :: m) ≤ d → parseMembers fuel d (Node.mapText (e :: m) ++ '}' :: rest) = some (Node.mapNorm (e :: m), rest) := by
  intro e m hwf henc fuel d rest hf hd
  have hsz : sizeOf e.2 < sizeOf e := by cases e; simp; omega
  have ht := parse_text hX e.2
  obtain ⟨fuel, rfl⟩ : ∃ k, fuel = k + 1 := ⟨fuel - 1, by omega⟩
  have hrec : ∀ e' m', m = e' :: m' → _ := fun e' m' hm => parse_members hX e' m'
  obtain ⟨k, n⟩ := e
  dsimp only at ht
  simp only [Node.mapEncodable, Bool.and_eq_true] at henc
  simp only [Node.mapDepth] at hd
  rw [parseMembers]
  cases m with
  | nil =>
    simp only [Node.mapText, List.length_append, List.length_cons] at hf
    simp only [Node.mapText, jsonStr, List.append_assoc, List.cons_append, List.nil_append]
    rw [skipWs_cons _ _ (by decide)]
    simp only [parseStr_jsonStr]
    rw [skipWs_cons _ _ (by decide)]
    simp only
    rw [ht hwf.1 henc.1 fuel d _ (by omega) (by omega) (stops_sep _ _ (by simp))]
    simp [skipWs, isWs, Node.mapNorm]
  | cons e m =>
    have hrec := hrec e m rfl
    obtain ⟨k', n'⟩ := e
    simp only [Node.mapText, List.length_append, List.length_cons] at hf
    simp only [Node.mapText, jsonStr, List.append_assoc, List.cons_append, List.nil_append]
    rw [skipWs_cons _ _ (by decide)]
    simp only [parseStr_jsonStr]
    rw [skipWs_cons _ _ (by decide)]
    simp only
    rw [ht hwf.1 henc.1 fuel d _ (by omega) (by omega) (stops_sep _ _ (by simp))]
    simp only
    rw [skipWs_cons _ _ (by decide)]
    simp only
    rw [hrec hwf.2 (by simpa [Node.mapEncodable] using henc.2) fuel d rest (by omega) (by simp only [Node.mapDepth] at hd ⊢; omega)]
    simp [Node.mapNorm]
termination_by e l => sizeOf e + sizeOf l + 1
decreasing_by all_goals (subst_vars; first | (simp; done) | (simp; omega) | omega)
theorem parse_pairs {X : Ext} (hX : Laws X) : ∀ (e : (Str × Str) × Node X) (m : List ((Str × Str) × Node X)), Node.pairsWF (e :: m) →
    Node.pairsEncodable (e :: m) = true →
    ∀ (fuel d : Nat) (rest : Str), 2 * (Node.pairsText (e :: m)).length + 1 ≤ fuel →
    Node.pairsDepth (e :: m) ≤ d → parseMembers fuel d (Node.pairsText (e :: m) ++ '}' :: rest) = some (Node.pairsNorm (e :: m), rest) := by
  intro e m hwf henc fuel d rest hf hd
  have hsz : sizeOf e.2 < sizeOf e := by cases e; simp; omega
  have ht := parse_text hX e.2
  obtain ⟨fuel, rfl⟩ : ∃ k, fuel = k + 1 := ⟨fuel - 1, by omega⟩
  have hrec : ∀ e' m', m = e' :: m' → _ := fun e' m' hm => parse_pairs hX e' m'
  obtain ⟨⟨k0, k⟩, n⟩ := e
  dsimp only at ht
  simp only [Node.pairsEncodable, Bool.and_eq_true] at henc
  simp only [Node.pairsDepth] at hd
  rw [parseMembers]
  cases m with
  | nil =>
    simp only [Node.pairsText, List.length_append, List.length_cons] at hf
    simp only [Node.pairsText, jsonStr, List.append_assoc, List.cons_append, List.nil_append]
    rw [skipWs_cons _ _ (by decide)]
    simp only [parseStr_jsonStr]
    rw [skipWs_cons _ _ (by decide)]
    simp only
    rw [ht hwf.1 henc.1 fuel d _ (by omega) (by omega) (stops_sep _ _ (by simp))]
    simp [skipWs, isWs, Node.pairsNorm]
  | cons e m =>
    have hrec := hrec e m rfl
    obtain ⟨⟨k0', k'⟩, n'⟩ := e
    simp only [Node.pairsText, List.length_append, List.length_cons] at hf
    simp only [Node.pairsText, jsonStr, List.append_assoc, List.cons_append, List.nil_append]
    rw [skipWs_cons _ _ (by decide)]
    simp only [parseStr_jsonStr]
    rw [skipWs_cons _ _ (by decide)]
    simp only
    rw [ht hwf.1 henc.1 fuel d _ (by omega) (by omega) (stops_sep _ _ (by simp))]
    simp only
    rw [skipWs_cons _ _ (by decide)]
    simp only
    rw [hrec hwf.2 (by simpa [Node.pairsEncodable] using henc.2) fuel d rest (by omega) (by simp only [Node.pairsDepth] at hd ⊢; omega)]
    simp [Node.pairsNorm]
termination_by e l => sizeOf e + sizeOf l + 1
decreasing_by all_goals (subst_vars; first | (simp; done) | (simp; omega) | omega)
end

end Verif.Enc

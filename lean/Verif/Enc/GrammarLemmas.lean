import Verif.Enc.GrammarSpec
/-! # Lemmas: the parser of Enc/Json.lean and the grammar -/
set_option autoImplicit false
namespace Verif.Enc
open Verif.Strconv

/-! ### hexadecimal digits and escapes -/

theorem hexVal_of_table (c : Char) (v : Nat) (h : (c, v) ∈ hexTable) : hexVal c = some v := by
  have : ∀ p ∈ hexTable, hexVal p.1 = some p.2 := by decide
  exact this (c, v) h

theorem char_of_toNat (c : Char) (n : Nat) (h : c.toNat = n) : c = Char.ofNat n := by subst h; exact (Char.ofNat_toNat c).symm

theorem table_of_hexVal (c : Char) (v : Nat) (h : hexVal c = some v) : (c, v) ∈ hexTable := by
  have key : ∀ n : Fin 128, ∀ v, hexVal (Char.ofNat n.val) = some v → (Char.ofNat n.val, v) ∈ hexTable := by
    have : ∀ n : Fin 128, ∀ v ∈ (hexVal (Char.ofNat n.val)).toList, (Char.ofNat n.val, v) ∈ hexTable := by decide +kernel
    intro n v hv; exact this n v (by simp [hv])
  have hb : c.toNat < 128 := by
    unfold hexVal at h
    have le : ∀ a b : Char, a ≤ b → a.toNat ≤ b.toNat := fun a b h => h
    split at h
    · rename_i hc; have := le _ _ hc.2; simp at this; omega
    split at h
    · rename_i hc; have := le _ _ hc.2; simp at this; omega
    split at h
    · rename_i hc; have := le _ _ hc.2; simp at this; omega
    · cases h
  have := key ⟨c.toNat, hb⟩ v
  simp only [Char.ofNat_toNat] at this
  exact this h

theorem hex4_iff (a b c d : Char) (u : Nat) : hex4 a b c d = some u ↔ Unit4 a b c d u := by
  constructor
  · intro h
    unfold hex4 at h
    split at h
    · rename_i p q r s h1 h2 h3 h4
      injection h with h
      exact ⟨p, q, r, s, table_of_hexVal _ _ h1, table_of_hexVal _ _ h2, table_of_hexVal _ _ h3, table_of_hexVal _ _ h4, by omega⟩
    · cases h
  · rintro ⟨p, q, r, s, h1, h2, h3, h4, rfl⟩
    simp only [hex4, hexVal_of_table _ _ h1, hexVal_of_table _ _ h2, hexVal_of_table _ _ h3, hexVal_of_table _ _ h4, Option.some.injEq]
    omega

theorem unescape_iff (e c : Char) : unescape e = some c ↔ (e, c) ∈ escapes := by
  constructor
  · intro h
    unfold unescape at h
    repeat' split at h
    all_goals first
      | (cases h; done)
      | (injection h with h; subst h; subst_vars; decide)
  · intro h
    have : ∀ p ∈ escapes, unescape p.1 = some p.2 := by decide
    exact this (e, c) h

theorem hexVal_quote : hexVal '"' = none := by decide

theorem peek_quote (t r : Str) (v : Nat) (h : peekUnit (t ++ '"' :: r) = some v) :
    ∃ a b c d r', t = '\\' :: 'u' :: a :: b :: c :: d :: r' ∧ Unit4 a b c d v := by
  have bad : ∀ a b c d : Char, a = '"' ∨ b = '"' ∨ c = '"' ∨ d = '"' → hex4 a b c d = none := by
    intro a b c d h
    unfold hex4
    rcases h with rfl | rfl | rfl | rfl <;> split <;> simp_all [hexVal_quote]
  unfold peekUnit at h
  split at h
  · rename_i a b c d r' he
    match t, he with
    | [], he => simp at he
    | [_], he => simp at he
    | [_, _], he =>
      simp only [List.cons_append, List.nil_append, List.cons.injEq] at he
      rw [bad a b c d (Or.inl he.2.2.1.symm)] at h; cases h
    | [_, _, _], he =>
      simp only [List.cons_append, List.nil_append, List.cons.injEq] at he
      rw [bad a b c d (Or.inr (Or.inl he.2.2.2.1.symm))] at h; cases h
    | [_, _, _, _], he =>
      simp only [List.cons_append, List.nil_append, List.cons.injEq] at he
      rw [bad a b c d (Or.inr (Or.inr (Or.inl he.2.2.2.2.1.symm)))] at h; cases h
    | [_, _, _, _, _], he =>
      simp only [List.cons_append, List.nil_append, List.cons.injEq] at he
      rw [bad a b c d (Or.inr (Or.inr (Or.inr he.2.2.2.2.2.1.symm)))] at h; cases h
    | x1 :: x2 :: x3 :: x4 :: x5 :: x6 :: t, he =>
      simp only [List.cons_append, List.cons.injEq] at he
      obtain ⟨rfl, rfl, rfl, rfl, rfl, rfl, _⟩ := he
      exact ⟨_, _, _, _, t, rfl, (hex4_iff ..).1 h⟩
  · cases h

/-! ### strings -/

theorem parseStr_unit (a b c d : Char) (u : Nat) (r : Str) (h : hex4 a b c d = some u) :
    parseStr ('\\' :: 'u' :: a :: b :: c :: d :: r) = (match peekUnit r with
      | some v => if 0xD800 ≤ u ∧ u < 0xDC00 ∧ 0xDC00 ≤ v ∧ v < 0xE000 then consChar (ofPair u v) (parseStr (r.drop 6))
        else consChar (ofUnit u) (parseStr r)
      | none => consChar (ofUnit u) (parseStr r)) := by
  rw [parseStr]; simp only [h]; rfl

theorem ofPair_eq (u v : Nat) : ofPair u v = Char.ofNat ((u - 0xD800) * 0x400 + (v - 0xDC00) + 0x10000) := by
  unfold ofPair
  exact congrArg Char.ofNat (by omega)

theorem parseStr_complete (t s : Str) (h : JStr t s) : ∀ r, parseStr (t ++ '"' :: r) = some (s, r) := by
  induction h with
  | nil => intro r; simp [parseStr]
  | plain c t s h1 h2 h3 _ ih =>
    intro r
    rw [List.cons_append, parseStr]
    · rw [if_neg (by rintro (h | h); omega; exact h3 h), ih r]; rfl
    · exact fun h => h2 h
    · intro _ _ _ _ _ h _; exact h3 h
    · intro _ _ h _; exact h3 h
  | esc e c t s h _ ih =>
    intro r
    have hu := (unescape_iff e c).2 h
    have hne : e ≠ 'u' := by rintro rfl; revert h; simp [escapes]
    rw [List.cons_append, List.cons_append, parseStr]
    · rw [hu]; simp only [ih r]; rfl
    · intro _ _ _ _ _ h _; exact hne h
  | unit a b c d u t s h nh nl _ ih =>
    intro r
    simp only [List.cons_append]
    rw [parseStr_unit _ _ _ _ _ _ ((hex4_iff ..).2 h)]
    have ho : ofUnit u = Char.ofNat u := by
      unfold ofUnit; rw [if_neg]; simp only [High, Low] at nh nl; omega
    have hn : ¬ (0xD800 ≤ u ∧ u < 0xDC00) := by simp only [High] at nh; omega
    split
    · rw [if_neg (fun hh => hn ⟨hh.1, hh.2.1⟩), ih r, ho]; rfl
    · rw [ih r, ho]; rfl
  | pair a b c d a' b' c' d' u v t s h hh h' hl _ ih =>
    intro r
    simp only [List.cons_append]
    rw [parseStr_unit _ _ _ _ _ _ ((hex4_iff ..).2 h)]
    simp only [peekUnit, (hex4_iff ..).2 h']
    simp only [High, Low] at hh hl
    rw [if_pos (by omega)]
    simp only [List.drop_succ_cons, List.drop_zero, ih r, consChar, ofPair_eq]
  | lone a b c d u t s h hc _ ih =>
    intro r
    simp only [List.cons_append]
    rw [parseStr_unit _ _ _ _ _ _ ((hex4_iff ..).2 h)]
    have ho : ofUnit u = Char.ofNat 0xFFFD := by
      unfold ofUnit; rw [if_pos]; rfl
      simp only [High, Low] at hc; omega
    split
    · rename_i v hv
      rw [if_neg, ih r, ho]; rfl
      rintro ⟨h1, h2, h3, h4⟩
      rcases hc with ⟨_, hc⟩ | hc
      · obtain ⟨a', b', c', d', r', rfl, hu⟩ := peek_quote t r v hv
        exact hc ⟨a', b', c', d', v, r', rfl, hu, h3, by omega⟩
      · simp only [Low] at hc; omega
    · rw [ih r, ho]; rfl

theorem consChar_some (c : Char) (o : Option (Str × Str)) (s r : Str) (h : consChar c o = some (s, r)) :
    ∃ s', s = c :: s' ∧ o = some (s', r) := by
  cases o with
  | none => cases h
  | some p =>
    obtain ⟨s', r'⟩ := p
    simp only [consChar, Option.some.injEq, Prod.mk.injEq] at h
    obtain ⟨rfl, rfl⟩ := h
    exact ⟨s', rfl, rfl⟩

theorem lowNext_quote (t r : Str) (h : LowNext t) : ∃ v, peekUnit (t ++ '"' :: r) = some v ∧ Low v := by
  obtain ⟨a, b, c, d, v, r', rfl, hu, hl⟩ := h
  exact ⟨v, by simp only [List.cons_append, peekUnit]; exact (hex4_iff ..).2 hu, hl⟩

theorem parseStr_sound : ∀ (k : Nat) (x s r : Str), x.length ≤ k → parseStr x = some (s, r) → ∃ t, x = t ++ '"' :: r ∧ JStr t s := by
  intro k
  induction k with
  | zero =>
    intro x s r hk h
    cases x with
    | nil => simp [parseStr] at h
    | cons _ _ => simp at hk
  | succ k ih =>
    intro x s r hk h
    have hun : ∀ a b c d r0, x = '\\' :: 'u' :: a :: b :: c :: d :: r0 → ∃ t, x = t ++ '"' :: r ∧ JStr t s := by
      intro a b c d r0 hx
      subst hx
      simp only [List.length_cons] at hk
      cases hu : hex4 a b c d with
      | none => rw [parseStr] at h; simp only [hu] at h; cases h
      | some u =>
        rw [parseStr_unit _ _ _ _ _ _ hu] at h
        have one : consChar (ofUnit u) (parseStr r0) = some (s, r) →
            (∀ v, peekUnit r0 = some v → ¬ (0xD800 ≤ u ∧ u < 0xDC00 ∧ 0xDC00 ≤ v ∧ v < 0xE000)) →
            ∃ t, '\\' :: 'u' :: a :: b :: c :: d :: r0 = t ++ '"' :: r ∧ JStr t s := by
          intro h hp
          obtain ⟨s', rfl, h2⟩ := consChar_some _ _ _ _ h
          obtain ⟨t, rfl, ht⟩ := ih _ _ _ (by omega) h2
          refine ⟨'\\' :: 'u' :: a :: b :: c :: d :: t, rfl, ?_⟩
          have hu4 := (hex4_iff ..).1 hu
          unfold ofUnit
          split
          · rename_i hs
            refine JStr.lone a b c d u t s' hu4 ?_ ht
            by_cases hl : Low u
            · exact Or.inr hl
            · refine Or.inl ⟨?_, ?_⟩
              · simp only [High, Low] at hl ⊢; omega
              · intro hn
                obtain ⟨v, hv, hv'⟩ := lowNext_quote t r hn
                apply hp v hv
                simp only [Low] at hl hv'; omega
          · rename_i hs
            exact JStr.unit a b c d u t s' hu4 (by simp only [High]; omega) (by simp only [Low]; omega) ht
        cases hv : peekUnit r0 with
        | none => rw [hv] at h; exact one h (fun v hv' => by rw [hv] at hv'; cases hv')
        | some v =>
          rw [hv] at h
          simp only at h
          split at h
          · rename_i hs
            obtain ⟨s', rfl, h2⟩ := consChar_some _ _ _ _ h
            obtain ⟨a', b', c', d', r', rfl, hv4⟩ : ∃ a' b' c' d' r', r0 = '\\' :: 'u' :: a' :: b' :: c' :: d' :: r' ∧ hex4 a' b' c' d' = some v := by
              unfold peekUnit at hv
              split at hv
              · exact ⟨_, _, _, _, _, rfl, hv⟩
              · cases hv
            simp only [List.drop_succ_cons, List.drop_zero] at h2
            obtain ⟨t, rfl, ht⟩ := ih _ _ _ (by simp only [List.length_cons] at hk; omega) h2
            refine ⟨'\\' :: 'u' :: a :: b :: c :: d :: '\\' :: 'u' :: a' :: b' :: c' :: d' :: t, rfl, ?_⟩
            have := JStr.pair a b c d a' b' c' d' u v t s' ((hex4_iff ..).1 hu) (by simp only [High]; omega) ((hex4_iff ..).1 hv4)
              (by simp only [Low]; omega) ht
            rw [ofPair_eq]
            exact this
          · rename_i hs
            exact one h (fun v' hv' => by rw [hv] at hv'; injection hv' with hv'; subst hv'; exact hs)
    cases x with
    | nil => simp [parseStr] at h
    | cons c x =>
      by_cases hq : c = '"'
      · subst hq
        rw [parseStr] at h
        simp only [Option.some.injEq, Prod.mk.injEq] at h
        obtain ⟨rfl, rfl⟩ := h
        exact ⟨[], rfl, .nil⟩
      by_cases hb : c = '\\'
      · subst hb
        match x, hun, hk, h with
        | [], _, _, h => simp [parseStr] at h
        | e :: x, hun, hk, h =>
          by_cases hl : ∃ a b c d r0, e :: x = 'u' :: a :: b :: c :: d :: r0
          · obtain ⟨a, b, c, d, r0, he⟩ := hl
            exact hun a b c d r0 (by rw [he])
          · rw [parseStr] at h
            · cases hu : unescape e with
              | none => rw [hu] at h; cases h
              | some y =>
                rw [hu] at h
                obtain ⟨s', rfl, h2⟩ := consChar_some _ _ _ _ h
                obtain ⟨t, rfl, ht⟩ := ih _ _ _ (by simp only [List.length_cons] at hk; omega) h2
                exact ⟨'\\' :: e :: t, rfl, .esc e y t s' ((unescape_iff e y).1 hu) ht⟩
            · intro a b c d r0 h1 h2
              exact hl ⟨a, b, c, d, r0, by rw [h1, h2]⟩
      · rw [parseStr] at h
        · split at h
          · cases h
          · rename_i hc
            obtain ⟨s', rfl, h2⟩ := consChar_some _ _ _ _ h
            obtain ⟨t, rfl, ht⟩ := ih _ _ _ (by simp only [List.length_cons] at hk; omega) h2
            exact ⟨c :: t, rfl, .plain c t s' (by omega) hq hb ht⟩
        · exact fun h => hq h
        · intro _ _ _ _ _ h _; exact hb h
        · intro _ _ h _; exact hb h

/-! ### numbers -/

theorem isDigit_iff (c : Char) : isDigit c = true ↔ '0' ≤ c ∧ c ≤ '9' := by simp [isDigit]

theorem spanDigits_spec (s : Str) : s = (spanDigits s).1 ++ (spanDigits s).2 ∧ ∀ c ∈ (spanDigits s).1, isDigit c = true := by
  induction s with
  | nil => exact ⟨rfl, fun _ h => by cases h⟩
  | cons c s ih =>
    rw [spanDigits]
    split
    · rename_i hc
      refine ⟨?_, ?_⟩
      · simp only [List.cons_append, List.cons.injEq, true_and]; exact ih.1
      · intro x hx
        rcases List.mem_cons.1 hx with rfl | hx
        · exact hc
        · exact ih.2 x hx
    · exact ⟨rfl, fun _ h => by cases h⟩

theorem digits1_span (s : Str) (h : (spanDigits s).1 ≠ []) : Digits1 (spanDigits s).1 :=
  ⟨h, fun c hc => (isDigit_iff c).1 ((spanDigits_spec s).2 c hc)⟩

theorem numInt_sound (s i r : Str) (h : numInt s = some (i, r)) : s = i ++ r ∧ (i = ['0'] ∨ Digits1 i ∧ i.head? ≠ some '0') := by
  cases s with
  | nil => simp [numInt] at h
  | cons c s =>
    by_cases hc : c = '0'
    · subst hc
      simp only [numInt, Option.some.injEq, Prod.mk.injEq] at h
      obtain ⟨rfl, rfl⟩ := h
      exact ⟨rfl, Or.inl rfl⟩
    · rw [numInt] at h
      · split at h
        · rename_i hd
          simp only [Option.some.injEq] at h
          have hs := spanDigits_spec (c :: s)
          have hh : (spanDigits (c :: s)).1 = c :: (spanDigits s).1 := by rw [spanDigits, if_pos hd]
          have h1 := digits1_span (c :: s) (by rw [hh]; simp)
          rw [h] at hs h1 hh
          refine ⟨hs.1, Or.inr ⟨h1, ?_⟩⟩
          simp only at hh
          rw [hh]; simpa using hc
        · cases h
      · exact hc

theorem numFrac_sound (s f r : Str) (h : numFrac s = some (f, r)) : s = f ++ r ∧ (f = [] ∨ ∃ ds, f = '.' :: ds ∧ Digits1 ds) := by
  unfold numFrac at h
  split at h
  · rename_i r'
    simp only at h
    split at h
    · cases h
    · rename_i hne
      simp only [Option.some.injEq, Prod.mk.injEq] at h
      obtain ⟨rfl, rfl⟩ := h
      exact ⟨by rw [List.cons_append, ← (spanDigits_spec r').1], Or.inr ⟨_, rfl, digits1_span _ hne⟩⟩
  · simp only [Option.some.injEq, Prod.mk.injEq] at h
    obtain ⟨rfl, rfl⟩ := h
    exact ⟨rfl, Or.inl rfl⟩

theorem numExp_sound (s e r : Str) (h : numExp s = some (e, r)) : s = e ++ r ∧
    (e = [] ∨ ∃ x sg' ds, e = x :: (sg' ++ ds) ∧ (x = 'e' ∨ x = 'E') ∧ (sg' = [] ∨ sg' = ['+'] ∨ sg' = ['-']) ∧ Digits1 ds) := by
  cases s with
  | nil =>
    simp only [numExp, Option.some.injEq, Prod.mk.injEq] at h
    obtain ⟨rfl, rfl⟩ := h
    exact ⟨rfl, Or.inl rfl⟩
  | cons c s =>
    unfold numExp at h
    simp only at h
    split at h
    · rename_i hc
      cases s with
      | nil => cases h
      | cons g s =>
        simp only at h
        split at h
        · rename_i hg
          split at h
          · cases h
          · rename_i hne
            simp only [Option.some.injEq, Prod.mk.injEq] at h
            obtain ⟨rfl, rfl⟩ := h
            refine ⟨by rw [List.cons_append, List.cons_append, ← (spanDigits_spec s).1], Or.inr ⟨c, [g], _, rfl, hc, ?_, digits1_span _ hne⟩⟩
            rcases hg with rfl | rfl
            · exact Or.inr (Or.inl rfl)
            · exact Or.inr (Or.inr rfl)
        · split at h
          · cases h
          · rename_i hne
            simp only [Option.some.injEq, Prod.mk.injEq] at h
            obtain ⟨rfl, rfl⟩ := h
            exact ⟨by rw [List.cons_append, ← (spanDigits_spec (g :: s)).1], Or.inr ⟨c, [], _, rfl, hc, Or.inl rfl, digits1_span _ hne⟩⟩
    · simp only [Option.some.injEq, Prod.mk.injEq] at h
      obtain ⟨rfl, rfl⟩ := h
      exact ⟨rfl, Or.inl rfl⟩

theorem parseNumber_sound (s n r : Str) (h : parseNumber s = some (n, r)) : s = n ++ r ∧ JNum n := by
  have body : ∀ sg s1, (sg = [] ∨ sg = ['-']) → numBody sg s1 = some (n, r) → sg ++ s1 = n ++ r ∧ JNum n := by
    intro sg s1 hsg h
    unfold numBody at h
    split at h
    · cases h
    rename_i i s2 h1
    split at h
    · cases h
    rename_i f s3 h2
    split at h
    · cases h
    rename_i e s4 h3
    simp only [Option.some.injEq, Prod.mk.injEq] at h
    obtain ⟨rfl, rfl⟩ := h
    obtain ⟨rfl, hi⟩ := numInt_sound _ _ _ h1
    obtain ⟨rfl, hf⟩ := numFrac_sound _ _ _ h2
    obtain ⟨rfl, he⟩ := numExp_sound _ _ _ h3
    exact ⟨by simp only [List.append_assoc], sg, i, f, e, by simp only [List.append_assoc], hsg, hi, hf, he⟩
  unfold parseNumber at h
  split at h
  · exact body ['-'] _ (Or.inr rfl) h
  · exact body [] _ (Or.inl rfl) h

theorem digits1_all (s : Str) (h : Digits1 s) : ∀ c ∈ s, isDigit c = true := fun c hc => (isDigit_iff c).2 (h.2 c hc)

theorem isNumber_of_JNum (t : Str) (h : JNum t) : isNumber t = true := by
  obtain ⟨sg, i, f, e, rfl, hsg, hi, hf, he⟩ := h
  have stops_e : Stops e ∨ (∃ x y, e = x :: y ∧ isDigit x = false ∧ x ≠ '.') := by
    rcases he with rfl | ⟨x, sg', ds, rfl, hx, _, _⟩
    · exact Or.inl trivial
    · exact Or.inr ⟨x, _, rfl, by rcases hx with rfl | rfl <;> decide, by rcases hx with rfl | rfl <;> decide⟩
  have nodig : ∀ (a b : Str), (∀ c ∈ a, isDigit c = true) → (∀ x y, b = x :: y → isDigit x = false) → spanDigits (a ++ b) = (a, b) := by
    intro a b ha hb
    induction a with
    | nil =>
      cases b with
      | nil => rfl
      | cons x y => simp [spanDigits, hb x y rfl]
    | cons c a ih =>
      rw [List.cons_append, spanDigits, if_pos (ha c (by simp)), ih (fun c hc => ha c (by simp [hc]))]
  have hed : ∀ x y, e = x :: y → isDigit x = false ∧ x ≠ '.' := by
    intro x y hxy
    rcases he with rfl | ⟨x', sg', ds, rfl, hx, _, _⟩
    · cases hxy
    · injection hxy with h1 h2; subst h1
      rcases hx with rfl | rfl <;> exact ⟨by decide, by decide⟩
  have hfd : ∀ x y, f ++ e = x :: y → isDigit x = false := by
    intro x y hxy
    rcases hf with rfl | ⟨ds, rfl, _⟩
    · exact (hed x y hxy).1
    · simp only [List.cons_append, List.cons.injEq] at hxy; rw [← hxy.1]; decide
  have h1 : numInt (i ++ (f ++ e)) = some (i, f ++ e) := by
    rcases hi with rfl | ⟨hi, hz⟩
    · rfl
    · cases i with
      | nil => exact absurd rfl hi.1
      | cons c i =>
        have hc : c ≠ '0' := by simpa using hz
        have hd := digits1_all _ hi
        rw [List.cons_append, numInt]
        · rw [if_pos (hd c (by simp)), ← List.cons_append, nodig (c :: i) (f ++ e) hd hfd]
        · exact hc
  have h2 : numFrac (f ++ e) = some (f, e) := by
    rcases hf with rfl | ⟨ds, rfl, hds⟩
    · rw [List.nil_append, numFrac]
      intro r hr
      exact (hed '.' r hr).2 rfl
    · simp only [List.cons_append, numFrac, nodig ds e (digits1_all _ hds) (fun x y h => (hed x y h).1)]
      rw [if_neg hds.1]
  have h3 : numExp e = some (e, []) := by
    rcases he with rfl | ⟨x, sg', ds, rfl, hx, hs', hds⟩
    · rfl
    · have hsp := spanDigits_all ds (digits1_all _ hds)
      unfold numExp
      simp only
      rw [if_pos hx]
      rcases hs' with rfl | rfl | rfl
      · cases ds with
        | nil => exact absurd rfl hds.1
        | cons g ds =>
          have hg := digits1_all _ hds g (by simp)
          have : ¬ (g = '+' ∨ g = '-') := by rintro (rfl | rfl) <;> exact absurd hg (by decide)
          simp only [List.nil_append]
          rw [if_neg this, hsp]; simp
      · simp [hsp, hds.1]
      · simp [hsp, hds.1]
  have hb : ∀ sg, numBody sg (i ++ (f ++ e)) = some (sg ++ (i ++ (f ++ e)), []) := by
    intro sg; simp only [numBody, h1, h2, h3, List.append_assoc]
  have : parseNumber (sg ++ (i ++ (f ++ e))) = some (sg ++ (i ++ (f ++ e)), []) := by
    rcases hsg with rfl | rfl
    · rw [List.nil_append, parseNumber]
      · simpa using hb []
      · intro r hr
        rcases hi with rfl | ⟨hi, _⟩
        · cases hr
        · cases i with
          | nil => exact hi.1 rfl
          | cons c i =>
            simp only [List.cons_append, List.cons.injEq] at hr
            have := digits1_all _ hi c (by simp)
            rw [hr.1] at this; exact absurd this (by decide)
    · exact hb ['-']
  simp [isNumber, this]

end Verif.Enc

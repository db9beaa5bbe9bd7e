import Verif.Prom.Quote
/-!
# `%q` is injective and self-delimiting
-/
set_option autoImplicit false
namespace Verif.Prom

theorem hexDigit_inj {a b : Nat} (ha : a < 16) (hb : b < 16) (h : hexDigit a = hexDigit b) : a = b := by
  have key : ∀ a : Fin 16, ∀ b : Fin 16, hexDigit a.val = hexDigit b.val → a = b := by decide +kernel
  have := key ⟨a, ha⟩ ⟨b, hb⟩ h
  exact congrArg Fin.val this

theorem hexN_length (w n : Nat) : (hexN w n).length = w := by
  induction w generalizing n with
  | zero => rfl
  | succ w ih => simp [hexN, ih]

theorem hexN_inj (w : Nat) : ∀ {a b : Nat}, a < 16 ^ w → b < 16 ^ w → hexN w a = hexN w b → a = b := by
  induction w with
  | zero => intro a b ha hb _; simp at ha hb; omega
  | succ w ih =>
    intro a b ha hb h
    simp only [hexN] at h
    have h1 := List.append_inj h (by simp [hexN_length])
    have h2 : a / 16 = b / 16 := ih (by rw [Nat.pow_succ] at ha; omega) (by rw [Nat.pow_succ] at hb; omega) h1.1
    have h3 : a % 16 = b % 16 := hexDigit_inj (by omega) (by omega) (by simpa using h1.2)
    omega

theorem char_eq_of_toNat {c d : Char} (h : c.toNat = d.toNat) : c = d := by
  have : c.val = d.val := UInt32.toNat.inj h
  exact Char.ext this

theorem toNat_lt (c : Char) : c.toNat < 16 ^ 8 := by
  have := c.val.toNat_lt
  have h : c.toNat = c.val.toNat := rfl
  omega

/-- The code word of an element, by kind: the escape letter decides the kind, so code words of different kinds never clash. -/
inductive Code (isPrint : Char → Bool) : Elt → List Char → Prop where
  | raw (c : Char) (h1 : c ≠ '"') (h2 : c ≠ '\\') : Code isPrint (.rune c) [c]
  | self (c : Char) (h : c = '"' ∨ c = '\\') : Code isPrint (.rune c) ['\\', c]
  | named (c e : Char) (h : namedEscape c.toNat = some e) : Code isPrint (.rune c) ['\\', e]
  | x (c : Char) (h : c.toNat < 0x80) : Code isPrint (.rune c) ('\\' :: 'x' :: hexN 2 c.toNat)
  | xb (b : Nat) (ge : 0x80 ≤ b) (lt : b < 0x100) : Code isPrint (.bad b ge lt) ('\\' :: 'x' :: hexN 2 b)
  | u (c : Char) (h : c.toNat < 0x10000) : Code isPrint (.rune c) ('\\' :: 'u' :: hexN 4 c.toNat)
  | U (c : Char) : Code isPrint (.rune c) ('\\' :: 'U' :: hexN 8 c.toNat)

theorem escape_code (isPrint : Char → Bool) (e : Elt) : Code isPrint e (escape isPrint e) := by
  cases e with
  | bad b ge lt => exact .xb b ge lt
  | rune c =>
    simp only [escape]
    split
    · rename_i h; exact .self c h
    · rename_i h
      have h1 : c ≠ '"' := fun e => h (.inl e)
      have h2 : c ≠ '\\' := fun e => h (.inr e)
      split
      · exact .raw c h1 h2
      · split
        · rename_i e he; exact .named c e he
        · split
          · rename_i h; exact .x c (by omega)
          · split
            · rename_i h; exact .u c h
            · exact .U c

theorem named_letters {n : Nat} {e : Char} (h : namedEscape n = some e) :
    e ≠ '"' ∧ e ≠ '\\' ∧ e ≠ 'x' ∧ e ≠ 'u' ∧ e ≠ 'U' := by
  unfold namedEscape at h
  repeat' split at h
  all_goals first
    | (injection h with h; subst h; decide)
    | cases h

theorem named_inj {n m : Nat} {e : Char} (h : namedEscape n = some e) (h' : namedEscape m = some e) : n = m := by
  unfold namedEscape at h h'
  repeat' split at h
  all_goals repeat' split at h'
  all_goals simp_all
  all_goals (subst h; simp at h')

theorem hex_append_inj {w a b : Nat} {r r' : List Char} (ha : a < 16 ^ w) (hb : b < 16 ^ w) (h : hexN w a ++ r = hexN w b ++ r') :
    a = b ∧ r = r' := by
  have := List.append_inj h (by simp [hexN_length])
  exact ⟨hexN_inj w ha hb this.1, this.2⟩

theorem code_inj {isPrint : Char → Bool} {e e' : Elt} {w w' r r' : List Char} (h : Code isPrint e w) (h' : Code isPrint e' w')
    (heq : w ++ r = w' ++ r') : e = e' ∧ r = r' := by
  have x7f : ∀ c : Char, c.toNat < 0x80 → c.toNat < 16 ^ 2 := by intro c h; omega
  cases h <;> cases h' <;> simp only [List.cons_append, List.nil_append, List.cons.injEq] at heq
  case raw.raw => obtain ⟨rfl, rfl⟩ := heq; exact ⟨rfl, rfl⟩
  case raw.self => exact absurd heq.1 (by assumption)
  case raw.named => exact absurd heq.1 (by assumption)
  case raw.x => exact absurd heq.1 (by assumption)
  case raw.xb => exact absurd heq.1 (by assumption)
  case raw.u => exact absurd heq.1 (by assumption)
  case raw.U => exact absurd heq.1 (by assumption)
  case self.raw => exact absurd heq.1.symm (by assumption)
  case named.raw => exact absurd heq.1.symm (by assumption)
  case x.raw => exact absurd heq.1.symm (by assumption)
  case xb.raw => exact absurd heq.1.symm (by assumption)
  case u.raw => exact absurd heq.1.symm (by assumption)
  case U.raw => exact absurd heq.1.symm (by assumption)
  case self.self => obtain ⟨_, rfl, rfl⟩ := heq; exact ⟨rfl, rfl⟩
  case self.named c hc c' e he =>
    obtain ⟨_, rfl, rfl⟩ := heq
    have := named_letters he; rcases hc with rfl | rfl <;> simp at this
  case self.x c hc c' h' => obtain ⟨_, rfl, _⟩ := heq; simp at hc
  case self.xb c hc b ge lt => obtain ⟨_, rfl, _⟩ := heq; simp at hc
  case self.u c hc c' h' => obtain ⟨_, rfl, _⟩ := heq; simp at hc
  case self.U c hc c' => obtain ⟨_, rfl, _⟩ := heq; simp at hc
  case named.self c e he c' hc =>
    obtain ⟨_, rfl, rfl⟩ := heq
    have := named_letters he; rcases hc with rfl | rfl <;> simp at this
  case named.named c e he c' e' he' =>
    obtain ⟨_, rfl, rfl⟩ := heq
    exact ⟨by rw [char_eq_of_toNat (named_inj he he')], rfl⟩
  case named.x c e he c' h => obtain ⟨_, rfl, _⟩ := heq; have := named_letters he; simp at this
  case named.xb c e he c' h h' => obtain ⟨_, rfl, _⟩ := heq; have := named_letters he; simp at this
  case named.u c e he c' h => obtain ⟨_, rfl, _⟩ := heq; have := named_letters he; simp at this
  case named.U c e he c' => obtain ⟨_, rfl, _⟩ := heq; have := named_letters he; simp at this
  case x.self c h c' hc => obtain ⟨_, rfl, _⟩ := heq; simp at hc
  case x.named c h c' e he => obtain ⟨_, rfl, _⟩ := heq; have := named_letters he; simp at this
  case x.x c h c' h' =>
    have := hex_append_inj (by omega) (by omega) heq.2.2
    exact ⟨by rw [char_eq_of_toNat this.1], this.2⟩
  case x.xb c h b ge lt =>
    have := hex_append_inj (by omega) (by omega) heq.2.2
    omega
  case x.u => exact absurd heq.2.1 (by decide)
  case x.U => exact absurd heq.2.1 (by decide)
  case xb.self b ge lt c' hc => obtain ⟨_, rfl, _⟩ := heq; simp at hc
  case xb.named b ge lt c' e he => obtain ⟨_, rfl, _⟩ := heq; have := named_letters he; simp at this
  case xb.x b ge lt c h =>
    have := hex_append_inj (by omega) (by omega) heq.2.2
    omega
  case xb.xb b ge lt b' ge' lt' =>
    have := hex_append_inj (by omega) (by omega) heq.2.2
    obtain ⟨rfl, rfl⟩ := this
    exact ⟨rfl, rfl⟩
  case xb.u => exact absurd heq.2.1 (by decide)
  case xb.U => exact absurd heq.2.1 (by decide)
  case u.self c h c' hc => obtain ⟨_, rfl, _⟩ := heq; simp at hc
  case u.named c h c' e he => obtain ⟨_, rfl, _⟩ := heq; have := named_letters he; simp at this
  case u.x => exact absurd heq.2.1 (by decide)
  case u.xb => exact absurd heq.2.1 (by decide)
  case u.u c h c' h' =>
    have := hex_append_inj (by omega) (by omega) heq.2.2
    exact ⟨by rw [char_eq_of_toNat this.1], this.2⟩
  case u.U => exact absurd heq.2.1 (by decide)
  case U.self c c' hc => obtain ⟨_, rfl, _⟩ := heq; simp at hc
  case U.named c c' e he => obtain ⟨_, rfl, _⟩ := heq; have := named_letters he; simp at this
  case U.x => exact absurd heq.2.1 (by decide)
  case U.xb => exact absurd heq.2.1 (by decide)
  case U.u => exact absurd heq.2.1 (by decide)
  case U.U c c' =>
    have := hex_append_inj (toNat_lt c) (toNat_lt c') heq.2.2
    exact ⟨by rw [char_eq_of_toNat this.1], this.2⟩

theorem code_head {isPrint : Char → Bool} {e : Elt} {w : List Char} (h : Code isPrint e w) : ∃ c r, w = c :: r ∧ c ≠ '"' := by
  cases h
  case raw c h1 h2 => exact ⟨c, [], rfl, h1⟩
  all_goals exact ⟨_, _, rfl, by decide⟩

/-- A quoted string followed by anything determines both. -/
theorem quote_append_inj (isPrint : Char → Bool) : ∀ (s s' : GoStr) (r r' : List Char),
    quote isPrint s ++ r = quote isPrint s' ++ r' → s = s' ∧ r = r' := by
  have body : ∀ (s s' : GoStr) (r r' : List Char),
      s.flatMap (escape isPrint) ++ ('"' :: r) = s'.flatMap (escape isPrint) ++ ('"' :: r') → s = s' ∧ r = r' := by
    intro s
    induction s with
    | nil =>
      intro s' r r' h
      cases s' with
      | nil => simpa using h
      | cons e s' =>
        obtain ⟨c, w, hw, hc⟩ := code_head (escape_code isPrint e)
        simp only [List.flatMap_nil, List.nil_append, List.flatMap_cons, hw, List.cons_append, List.cons.injEq] at h
        exact absurd h.1.symm hc
    | cons e s ih =>
      intro s' r r' h
      cases s' with
      | nil =>
        obtain ⟨c, w, hw, hc⟩ := code_head (escape_code isPrint e)
        simp only [List.flatMap_nil, List.nil_append, List.flatMap_cons, hw, List.cons_append, List.cons.injEq] at h
        exact absurd h.1 hc
      | cons e' s' =>
        simp only [List.flatMap_cons, List.append_assoc] at h
        obtain ⟨rfl, h2⟩ := code_inj (escape_code isPrint e) (escape_code isPrint e') h
        obtain ⟨rfl, rfl⟩ := ih s' r r' h2
        exact ⟨rfl, rfl⟩
  intro s s' r r' h
  refine body s s' r r' ?_
  simpa [quote] using h

end Verif.Prom

import Verif.Enc.GrammarLemmas
/-! # Lemmas: which number is read at the start of a text -/
set_option autoImplicit false
namespace Verif.Enc
open Verif.Strconv

/-- A number that the next character of `r` could continue: some number starts with `t` and that character. -/
def Extends (t r : Str) : Prop := ∃ c r' x, r = c :: r' ∧ JNum (t ++ c :: x)

/-- The text does not start with such a character. -/
def HeadNot (P : Char → Prop) (y : Str) : Prop := ∀ c y', y = c :: y' → ¬ P c

theorem headNot_local (P : Char → Prop) (a : Str) (c : Char) (r r' : Str) (h : HeadNot P (a ++ c :: r)) : HeadNot P (a ++ c :: r') := by
  cases a with
  | nil => intro x y he; injection he with h1 _; subst h1; exact h c r rfl
  | cons b a => intro x y he; injection he with h1 _; subst h1; exact h b _ rfl

theorem headNot_cons (P : Char → Prop) (c : Char) (r : Str) (h : ¬ P c) : HeadNot P (c :: r) := by
  intro x y he; injection he with h1 _; subst h1; exact h

theorem headNot_nil (P : Char → Prop) : HeadNot P [] := fun _ _ h => by cases h

/-- The parts of numbers. -/
def IntP (i : Str) : Prop := i = ['0'] ∨ Digits1 i ∧ i.head? ≠ some '0'
def FracP (f : Str) : Prop := f = [] ∨ ∃ ds, f = '.' :: ds ∧ Digits1 ds
def ExpP (e : Str) : Prop :=
  e = [] ∨ ∃ x sg' ds, e = x :: (sg' ++ ds) ∧ (x = 'e' ∨ x = 'E') ∧ (sg' = [] ∨ sg' = ['+'] ∨ sg' = ['-']) ∧ Digits1 ds
def IsD (c : Char) : Prop := isDigit c = true

theorem span_stop (a b : Str) (ha : ∀ c ∈ a, isDigit c = true) (hb : HeadNot IsD b) : spanDigits (a ++ b) = (a, b) := by
  induction a with
  | nil =>
    cases b with
    | nil => rfl
    | cons x y => have := hb x y rfl; simp only [IsD, Bool.not_eq_true] at this; simp [spanDigits, this]
  | cons c a ih =>
    rw [List.cons_append, spanDigits, if_pos (ha c (by simp)), ih (fun c hc => ha c (by simp [hc]))]

theorem span_rest (s : Str) : HeadNot IsD (spanDigits s).2 := by
  induction s with
  | nil => exact headNot_nil _
  | cons c s ih =>
    rw [spanDigits]
    split
    · exact ih
    · rename_i hc; exact headNot_cons _ _ _ hc

theorem numInt_follow (s i y : Str) (h : numInt s = some (i, y)) : i ≠ ['0'] → HeadNot IsD y := by
  intro hi
  cases s with
  | nil => simp [numInt] at h
  | cons c s =>
    by_cases hc : c = '0'
    · subst hc
      simp only [numInt, Option.some.injEq, Prod.mk.injEq] at h
      exact absurd h.1.symm hi
    · rw [numInt] at h
      · split at h
        · simp only [Option.some.injEq] at h
          have := span_rest (c :: s); rw [h] at this; exact this
        · cases h
      · exact hc

theorem numInt_of (i y : Str) (hi : IntP i) (h : i ≠ ['0'] → HeadNot IsD y) : numInt (i ++ y) = some (i, y) := by
  rcases hi with rfl | ⟨hi, hz⟩
  · rfl
  · cases i with
    | nil => exact absurd rfl hi.1
    | cons c i =>
      have hc : c ≠ '0' := by simpa using hz
      have hd := digits1_all _ hi
      rw [List.cons_append, numInt]
      · rw [if_pos (hd c (by simp)), ← List.cons_append, span_stop (c :: i) y hd (h (by intro he; injection he with he _; exact hc he))]
      · exact hc

theorem numFrac_follow (s f y : Str) (h : numFrac s = some (f, y)) : (f = [] → HeadNot (· = '.') y) ∧ (f ≠ [] → HeadNot IsD y) := by
  unfold numFrac at h
  split at h
  · rename_i r'
    simp only at h
    split at h
    · cases h
    · simp only [Option.some.injEq, Prod.mk.injEq] at h
      obtain ⟨rfl, rfl⟩ := h
      exact ⟨fun h => (by cases h), fun _ => span_rest r'⟩
  · rename_i hn
    simp only [Option.some.injEq, Prod.mk.injEq] at h
    obtain ⟨rfl, rfl⟩ := h
    exact ⟨fun _ c y' he hc => hn y' (by rw [he, hc]), fun h => absurd rfl h⟩

theorem numFrac_of (f y : Str) (hf : FracP f) (h1 : f = [] → HeadNot (· = '.') y) (h2 : f ≠ [] → HeadNot IsD y) : numFrac (f ++ y) = some (f, y) := by
  rcases hf with rfl | ⟨ds, rfl, hds⟩
  · rw [List.nil_append, numFrac]
    intro r hr
    exact h1 rfl '.' r hr rfl
  · simp only [List.cons_append, numFrac, span_stop ds y (digits1_all _ hds) (h2 (by simp))]
    rw [if_neg hds.1]

theorem numExp_follow (s e y : Str) (h : numExp s = some (e, y)) : (e = [] → HeadNot (fun c => c = 'e' ∨ c = 'E') y) ∧ (e ≠ [] → HeadNot IsD y) := by
  cases s with
  | nil =>
    simp only [numExp, Option.some.injEq, Prod.mk.injEq] at h
    obtain ⟨rfl, rfl⟩ := h
    exact ⟨fun _ => headNot_nil _, fun h => absurd rfl h⟩
  | cons c s =>
    unfold numExp at h
    simp only at h
    split at h
    · cases s with
      | nil => cases h
      | cons g s =>
        simp only at h
        split at h
        · split at h
          · cases h
          · simp only [Option.some.injEq, Prod.mk.injEq] at h
            obtain ⟨rfl, rfl⟩ := h
            exact ⟨fun h => (by cases h), fun _ => span_rest s⟩
        · split at h
          · cases h
          · simp only [Option.some.injEq, Prod.mk.injEq] at h
            obtain ⟨rfl, rfl⟩ := h
            exact ⟨fun h => (by cases h), fun _ => span_rest (g :: s)⟩
    · rename_i hc
      simp only [Option.some.injEq, Prod.mk.injEq] at h
      obtain ⟨rfl, rfl⟩ := h
      exact ⟨fun _ => headNot_cons _ _ _ hc, fun h => absurd rfl h⟩

theorem numExp_of (e y : Str) (he : ExpP e) (h1 : e = [] → HeadNot (fun c => c = 'e' ∨ c = 'E') y) (h2 : e ≠ [] → HeadNot IsD y) :
    numExp (e ++ y) = some (e, y) := by
  rcases he with rfl | ⟨x, sg', ds, rfl, hx, hs', hds⟩
  · cases y with
    | nil => rfl
    | cons c y =>
      unfold numExp
      simp only [List.nil_append]
      rw [if_neg (h1 rfl c y rfl)]
  · have hsp := span_stop ds y (digits1_all _ hds) (h2 (by simp))
    unfold numExp
    simp only [List.cons_append]
    rw [if_pos hx]
    rcases hs' with rfl | rfl | rfl
    · cases ds with
      | nil => exact absurd rfl hds.1
      | cons g ds =>
        have hg := digits1_all _ hds g (by simp)
        have : ¬ (g = '+' ∨ g = '-') := by rintro (rfl | rfl) <;> exact absurd hg (by decide)
        simp only [List.nil_append, List.cons_append] at hsp ⊢
        rw [if_neg this, hsp]; simp
    · simp [hsp, hds.1]
    · simp [hsp, hds.1]

/-- A number that is read comes in parts, and what follows each of them. -/
theorem parseNumber_parts (s t r : Str) (h : parseNumber s = some (t, r)) : ∃ sg i f e, t = sg ++ (i ++ (f ++ e)) ∧ s = sg ++ (i ++ (f ++ (e ++ r))) ∧
    (sg = [] ∨ sg = ['-']) ∧ IntP i ∧ FracP f ∧ ExpP e ∧ (i ≠ ['0'] → HeadNot IsD (f ++ (e ++ r))) ∧
    (f = [] → HeadNot (· = '.') (e ++ r)) ∧ (f ≠ [] → HeadNot IsD (e ++ r)) ∧
    (e = [] → HeadNot (fun c => c = 'e' ∨ c = 'E') r) ∧ (e ≠ [] → HeadNot IsD r) := by
  have body : ∀ sg s1, (sg = [] ∨ sg = ['-']) → numBody sg s1 = some (t, r) → ∃ i f e, t = sg ++ (i ++ (f ++ e)) ∧ s1 = i ++ (f ++ (e ++ r)) ∧
      IntP i ∧ FracP f ∧ ExpP e ∧ (i ≠ ['0'] → HeadNot IsD (f ++ (e ++ r))) ∧
      (f = [] → HeadNot (· = '.') (e ++ r)) ∧ (f ≠ [] → HeadNot IsD (e ++ r)) ∧
      (e = [] → HeadNot (fun c => c = 'e' ∨ c = 'E') r) ∧ (e ≠ [] → HeadNot IsD r) := by
    intro sg s1 hsg h
    unfold numBody at h
    split at h
    · cases h
    rename_i i s2 h1
    split at h
    · cases h
    rename_i f s3 h2
    split at h
    · cases h
    rename_i e s4 h3
    simp only [Option.some.injEq, Prod.mk.injEq] at h
    obtain ⟨rfl, rfl⟩ := h
    have k1 := numInt_follow _ _ _ h1
    have k2 := numFrac_follow _ _ _ h2
    have k3 := numExp_follow _ _ _ h3
    obtain ⟨rfl, hi⟩ := numInt_sound _ _ _ h1
    obtain ⟨rfl, hf⟩ := numFrac_sound _ _ _ h2
    obtain ⟨rfl, he⟩ := numExp_sound _ _ _ h3
    exact ⟨i, f, e, by simp only [List.append_assoc], rfl, hi, hf, he, k1, k2.1, k2.2, k3.1, k3.2⟩
  unfold parseNumber at h
  split at h
  · obtain ⟨i, f, e, h1, h2, h3⟩ := body ['-'] _ (Or.inr rfl) h
    exact ⟨['-'], i, f, e, h1, by rw [h2]; rfl, Or.inr rfl, h3⟩
  · obtain ⟨i, f, e, h1, h2, h3⟩ := body [] _ (Or.inl rfl) h
    exact ⟨[], i, f, e, h1, h2, Or.inl rfl, h3⟩

theorem parseNumber_of_parts (sg i f e r : Str) (hsg : sg = [] ∨ sg = ['-']) (hi : IntP i) (hf : FracP f) (he : ExpP e)
    (k1 : i ≠ ['0'] → HeadNot IsD (f ++ (e ++ r))) (k2 : f = [] → HeadNot (· = '.') (e ++ r)) (k3 : f ≠ [] → HeadNot IsD (e ++ r))
    (k4 : e = [] → HeadNot (fun c => c = 'e' ∨ c = 'E') r) (k5 : e ≠ [] → HeadNot IsD r) :
    parseNumber (sg ++ (i ++ (f ++ (e ++ r)))) = some (sg ++ (i ++ (f ++ e)), r) := by
  have hb : ∀ sg, numBody sg (i ++ (f ++ (e ++ r))) = some (sg ++ (i ++ (f ++ e)), r) := by
    intro sg; simp only [numBody, numInt_of i _ hi k1, numFrac_of f _ hf k2 k3, numExp_of e _ he k4 k5, List.append_assoc]
  rcases hsg with rfl | rfl
  · rw [List.nil_append, parseNumber]
    · simpa using hb []
    · intro r hr
      rcases hi with rfl | ⟨hi, _⟩
      · cases hr
      · cases i with
        | nil => exact hi.1 rfl
        | cons c i =>
          simp only [List.cons_append, List.cons.injEq] at hr
          have := digits1_all _ hi c (by simp)
          rw [hr.1] at this; exact absurd this (by decide)
  · exact hb ['-']

/-- Which number is read: the one that the next character cannot continue. -/
theorem parseNumber_iff (s t r : Str) : parseNumber s = some (t, r) ↔ s = t ++ r ∧ JNum t ∧ ¬ Extends t r := by
  constructor
  · intro h
    obtain ⟨hs, hn⟩ := parseNumber_sound _ _ _ h
    refine ⟨hs, hn, ?_⟩
    rintro ⟨c, r', x, rfl, hx⟩
    have hfull : parseNumber (t ++ c :: x) = some (t ++ c :: x, []) := by
      have := isNumber_of_JNum _ hx
      simpa [isNumber] using this
    obtain ⟨sg, i, f, e, rfl, _, hsg, hi, hf, he, k1, k2, k3, k4, k5⟩ := parseNumber_parts _ _ _ h
    have := parseNumber_of_parts sg i f e (c :: x) hsg hi hf he
      (fun h => by have := k1 h; rw [← List.append_assoc] at this ⊢; exact headNot_local _ _ _ _ _ this)
      (fun h => headNot_local _ _ _ _ _ (k2 h)) (fun h => headNot_local _ _ _ _ _ (k3 h))
      (fun h => headNot_local _ [] _ _ _ (k4 h)) (fun h => headNot_local _ [] _ _ _ (k5 h))
    simp only [List.append_assoc] at hfull this
    rw [this] at hfull
    simp at hfull
  · rintro ⟨rfl, ⟨sg, i, f, e, rfl, hsg, hi, hf, he⟩, hx⟩
    have one : ∀ c, isDigit c = true → Digits1 [c] := fun c hc => ⟨by simp, by intro x hx; simp at hx; subst hx; exact (isDigit_iff x).1 hc⟩
    have snoc : ∀ ds c, Digits1 ds → isDigit c = true → Digits1 (ds ++ [c]) := by
      intro ds c h hc
      refine ⟨by simp, ?_⟩
      intro x hx
      rcases List.mem_append.1 hx with hx | hx
      · exact h.2 x hx
      · simp at hx; subst hx; exact (isDigit_iff x).1 hc
    have zero : Digits1 ['0'] := one '0' (by decide)
    have e1 : ∀ c, IsD c → e ≠ [] → JNum (sg ++ (i ++ (f ++ e)) ++ c :: []) := by
      intro c hc hne
      rcases he with rfl | ⟨x, sg', ds, rfl, hx', hs', hds⟩
      · exact absurd rfl hne
      · exact ⟨sg, i, f, x :: (sg' ++ (ds ++ [c])), by simp, hsg, hi, hf, Or.inr ⟨x, sg', _, rfl, hx', hs', snoc ds c hds hc⟩⟩
    have f1 : ∀ c, IsD c → e = [] → f ≠ [] → JNum (sg ++ (i ++ (f ++ e)) ++ c :: []) := by
      intro c hc h0 hne
      subst h0
      rcases hf with rfl | ⟨ds, rfl, hds⟩
      · exact absurd rfl hne
      · exact ⟨sg, i, '.' :: (ds ++ [c]), [], by simp, hsg, hi, Or.inr ⟨_, rfl, snoc ds c hds hc⟩, Or.inl rfl⟩
    have i1 : ∀ c, IsD c → e = [] → f = [] → i ≠ ['0'] → JNum (sg ++ (i ++ (f ++ e)) ++ c :: []) := by
      intro c hc h0 h1 hne
      subst h0; subst h1
      rcases hi with rfl | ⟨hi, hz⟩
      · exact absurd rfl hne
      · refine ⟨sg, i ++ [c], [], [], by simp, hsg, Or.inr ⟨snoc i c hi hc, ?_⟩, Or.inl rfl, Or.inl rfl⟩
        cases i with
        | nil => exact absurd rfl hi.1
        | cons a i => simpa using hz
    have dot : e = [] → f = [] → JNum (sg ++ (i ++ (f ++ e)) ++ '.' :: ['0']) := by
      intro h0 h1; subst h0; subst h1
      exact ⟨sg, i, '.' :: ['0'], [], by simp, hsg, hi, Or.inr ⟨_, rfl, zero⟩, Or.inl rfl⟩
    have exp : ∀ c, (c = 'e' ∨ c = 'E') → e = [] → JNum (sg ++ (i ++ (f ++ e)) ++ c :: ['0']) := by
      intro c hc h0; subst h0
      exact ⟨sg, i, f, c :: ([] ++ ['0']), by simp, hsg, hi, hf, Or.inr ⟨c, [], _, rfl, hc, Or.inl rfl, zero⟩⟩
    have ehead : ∀ c y, e = c :: y → c = 'e' ∨ c = 'E' := by
      intro c y hc
      rcases he with rfl | ⟨x, sg', ds, rfl, hx', _, _⟩
      · cases hc
      · injection hc with h1 _; subst h1; exact hx'
    have nod : ∀ c, (c = 'e' ∨ c = 'E') → ¬ IsD c ∧ c ≠ '.' := by
      rintro c (rfl | rfl) <;> exact ⟨by simp only [IsD]; decide, by decide⟩
    have er : HeadNot IsD r → HeadNot IsD (e ++ r) := by
      intro h
      cases hE : e with
      | nil => exact h
      | cons c y => exact headNot_cons _ _ _ (nod c (ehead c y hE)).1
    have hr : e ≠ [] ∨ f ≠ [] ∨ i ≠ ['0'] → HeadNot IsD r := by
      intro h c r' hc hd
      apply hx
      refine ⟨c, r', [], hc, ?_⟩
      by_cases h0 : e = []
      · by_cases h1 : f = []
        · exact i1 c hd h0 h1 (by rcases h with h | h | h; exact absurd h0 h; exact absurd h1 h; exact h)
        · exact f1 c hd h0 h1
      · exact e1 c hd h0
    have := parseNumber_of_parts sg i f e r hsg hi hf he ?_ ?_ (fun h => er (hr (Or.inr (Or.inl h)))) ?_ (fun h => hr (Or.inl h))
    · simpa only [List.append_assoc] using this
    · intro h
      rcases hf with rfl | ⟨ds, rfl, _⟩
      · exact er (hr (Or.inr (Or.inr h)))
      · exact headNot_cons _ _ _ (by simp only [IsD]; decide)
    · intro h
      cases hE : e with
      | nil =>
        intro c r' hc hd
        subst hd
        exact hx ⟨'.', r', ['0'], hc, dot hE h⟩
      | cons c y => exact headNot_cons _ _ _ (nod c (ehead c y hE)).2
    · intro h c r' hc hd
      exact hx ⟨c, r', ['0'], hc, exp c hd h⟩

end Verif.Enc

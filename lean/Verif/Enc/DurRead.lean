import Verif.Enc.DurText
/-!
# Reading durations (C140)

What the reader of `DurText` makes of texts nobody wrote with `String`: any sequence of whole numbers with units is read as its sum, and refused if that is out of range.
-/
set_option autoImplicit false
namespace Verif.Enc.DurRead
open Verif.Strconv Verif.Enc Verif.Enc.Rfc3339 Verif.Enc.DurText

/-- The units that are documented for `time.ParseDuration`, in nanoseconds; there are two micro signs. Specification. -/
def units : List (Str × Nat) :=
  [(lit "ns", 1), (lit "us", 10 ^ 3), ([Char.ofNat 0xb5, 's'], 10 ^ 3), ([Char.ofNat 0x3bc, 's'], 10 ^ 3), (lit "ms", 10 ^ 6), (lit "s", 10 ^ 9), (lit "m", 60 * 10 ^ 9), (lit "h", 60 * 60 * 10 ^ 9)]

/-- A whole number of units. Specification. -/
structure Term where
  n : Nat
  unit : Str
  worth : Nat

/-- The text. Specification. -/
def spell : List Term → Str
  | [] => []
  | t :: l => fmtNat t.n ++ (t.unit ++ spell l)

/-- The meaning, in nanoseconds. Specification. -/
def total : List Term → Nat
  | [] => 0
  | t :: l => t.n * t.worth + total l

/-- C140: the units are those that are documented, and no others. -/
theorem C140_units (s : Str) (w : Nat) : unitOf s = some w ↔ (s, w) ∈ units := by
  have k : ∀ s w, (s, w) ∈ units → unitOf s = some w := by
    intro s w h
    simp only [units, List.mem_cons, Prod.mk.injEq, List.not_mem_nil, or_false] at h
    rcases h with h | h | h | h | h | h | h | h <;> obtain ⟨rfl, rfl⟩ := h <;> decide
  refine ⟨fun h => ?_, k s w⟩
  unfold unitOf at h
  split at h
  · rename_i e; injection h with h; subst h; subst e; simp [units]
  split at h
  · rename_i e; injection h with h; subst h
    rcases e with e | e | e <;> subst e <;> simp [units]
  split at h
  · rename_i e; injection h with h; subst h; subst e; simp [units]
  split at h
  · rename_i e; injection h with h; subst h; subst e; simp [units]
  split at h
  · rename_i e; injection h with h; subst h; subst e; simp [units]
  split at h
  · rename_i e; injection h with h; subst h; subst e; simp [units]
  · cases h

theorem units_ok (s : Str) (w : Nat) (h : (s, w) ∈ units) : (∀ c ∈ s, unitChar c = true) ∧ s ≠ [] ∧ 0 < w ∧ w ≤ 3600000000000 := by
  simp only [units, List.mem_cons, Prod.mk.injEq, List.not_mem_nil, or_false] at h
  rcases h with h | h | h | h | h | h | h | h <;> obtain ⟨rfl, rfl⟩ := h <;> decide

theorem leadInt_over (ds r : Str) (acc n : Nat) (h : digitsVal acc ds = some n) (hn : 2 ^ 63 < n) (ha : acc ≤ 2 ^ 63) : leadInt acc (ds ++ r) = none := by
  induction ds generalizing acc with
  | nil => rw [digitsVal] at h; injection h with h; omega
  | cons c ds ih =>
    rw [digitsVal] at h
    split at h
    · rename_i d hd
      simp only [List.cons_append, leadInt, hd]
      split
      · rfl
      · split
        · rfl
        · exact ih _ h (by omega)
    · cases h

theorem next_spell (l : List Term) : Next (spell l) := by
  cases l with
  | nil => exact next_nil
  | cons t l => exact next_digits _ _

/-- One term: read, or refused if it is too large by itself. -/
theorem part_term (P : Product) (t : Term) (l : List Term) (ht : (t.unit, t.worth) ∈ units) :
    part P (spell (t :: l)) = if t.n * t.worth ≤ 2 ^ 63 then some (t.n * t.worth, spell l) else none := by
  obtain ⟨h1, h2, h3, h4⟩ := units_ok _ _ ht
  have hu := (C140_units _ _).2 ht
  split
  · rename_i hb
    exact part_text P t.n t.worth 0 [] t.unit (spell l) hu h1 h2 (isFrac_none _) h3 h4 (next_spell l) (by omega)
  · rename_i hb
    obtain ⟨c, cs, he, _⟩ := fmtNat_head t.n
    have hc : isDigit c = true := fmtNat_digits t.n c (by rw [he]; simp)
    obtain ⟨n1, n2, hn12⟩ : ∃ a b, t.unit = a :: b := by cases hx : t.unit with
      | nil => exact absurd hx h2
      | cons a b => exact ⟨a, b, rfl⟩
    have hn1 : isDigit n1 = false ∧ n1 ≠ '.' := by
      have := h1 n1 (by rw [hn12]; simp)
      simp [unitChar] at this
      exact ⟨this.2, this.1⟩
    have hstop : Stop (t.unit ++ spell l) := by
      intro a b h; rw [hn12] at h; injection h with h _; subst h; exact hn1.1
    have key : ∀ s, s = spell (t :: l) → part P s = none := by
      intro s hs
      cases s with
      | nil => rfl
      | cons c' cs' =>
        have hc' : isDigit c' = true := by rw [spell, he] at hs; injection hs with hs _; subst hs; exact hc
        simp only [part, hc', or_true, if_true]
        by_cases hn : t.n ≤ 2 ^ 63
        · have hl := leadInt_digits (fmtNat t.n) (t.unit ++ spell l) 0 t.n (digitsVal_fmtNat _) hn hstop
          rw [hs, spell, hl]
          have hlen : (fmtNat t.n ++ (t.unit ++ spell l)).length ≠ (t.unit ++ spell l).length := by
            have : (fmtNat t.n).length = cs.length + 1 := by rw [he]; rfl
            simp [this]
          have hfp : fracPart (t.unit ++ spell l) = (0, 0, t.unit ++ spell l, false) := by
            rw [hn12]
            simp only [List.cons_append, fracPart]
            split
            · rename_i heq; injection heq with heq _; exact absurd heq hn1.2
            · rfl
          simp only [hlen, ne_eq, not_false_eq_true, decide_true, Bool.true_or, if_true, hfp, (takeWhile_name t.unit (spell l) h1 (next_spell l)).1, hu]
          rw [if_pos ?_]
          have : ¬ t.n ≤ 2 ^ 63 / t.worth := by rw [Nat.le_div_iff_mul_le h3]; exact hb
          omega
        · rw [hs, spell, leadInt_over (fmtNat t.n) _ 0 t.n (digitsVal_fmtNat _) (by omega) (by omega)]
    exact key _ rfl

theorem parts_sum (P : Product) (l : List Term) (hl : ∀ t ∈ l, (t.unit, t.worth) ∈ units) (fuel d : Nat) (hf : l.length ≤ fuel) (hd : d ≤ 2 ^ 63) :
    parts P fuel d (spell l) = if d + total l ≤ 2 ^ 63 then some (d + total l) else none := by
  induction l generalizing fuel d with
  | nil =>
    have e : total [] = 0 := rfl
    rw [spell, parts_nil, e, if_pos (by omega)]; rfl
  | cons t l ih =>
    cases fuel with
    | zero => simp at hf
    | succ f =>
      have hp := part_term P t l (hl t (by simp))
      obtain ⟨c, cs, he, _⟩ := fmtNat_head t.n
      have hs : spell (t :: l) = c :: (cs ++ (t.unit ++ spell l)) := by rw [spell, he]; rfl
      rw [hs] at hp ⊢
      have ht : total (t :: l) = t.n * t.worth + total l := rfl
      rw [ht]
      simp only [parts, hp]
      by_cases h1 : t.n * t.worth ≤ 2 ^ 63
      · rw [if_pos h1]
        simp only
        by_cases h2 : d + t.n * t.worth > 2 ^ 63
        · rw [if_pos h2, if_neg (by omega)]
        · rw [if_neg h2, ih (fun t ht => hl t (by simp [ht])) f _ (by simpa using hf) (by omega)]
          have e : d + t.n * t.worth + total l = d + (t.n * t.worth + total l) := by omega
          rw [e]
      · rw [if_neg h1, if_neg (by omega)]

theorem spell_length (l : List Term) : l.length ≤ (spell l).length := by
  induction l with
  | nil => simp
  | cons t l ih =>
    obtain ⟨c, cs, he, _⟩ := fmtNat_head t.n
    simp only [spell, he, List.length_append, List.length_cons]
    omega

/-- C140: any sequence of whole numbers with units, in any order, repeated or not, is read as its sum, with or without a sign, and refused exactly if the sum is out of range. -/
theorem C140_sum (P : Product) (t : Term) (l : List Term) (hl : ∀ x ∈ t :: l, (x.unit, x.worth) ∈ units) :
    parseDur P (spell (t :: l)) = (if total (t :: l) < 2 ^ 63 then some (total (t :: l) : Int) else none)
    ∧ parseDur P ('+' :: spell (t :: l)) = (if total (t :: l) < 2 ^ 63 then some (total (t :: l) : Int) else none)
    ∧ parseDur P ('-' :: spell (t :: l)) = (if total (t :: l) ≤ 2 ^ 63 then some (-(total (t :: l) : Int)) else none) := by
  obtain ⟨c, cs, he, _⟩ := fmtNat_head t.n
  have hc : isDigit c = true := fmtNat_digits t.n c (by rw [he]; simp)
  have hs : spell (t :: l) = c :: (cs ++ (t.unit ++ spell l)) := by rw [spell, he]; rfl
  have hne : spell (t :: l) ≠ ['0'] ∧ spell (t :: l) ≠ [] := by
    obtain ⟨_, h2, _, _⟩ := units_ok _ _ (hl t (by simp))
    refine ⟨fun h => ?_, by rw [hs]; simp⟩
    rw [hs] at h; injection h with _ h
    exact h2 (List.append_eq_nil_iff.1 (List.append_eq_nil_iff.1 h).2).1
  have hp := parts_sum P (t :: l) hl (spell (t :: l)).length 0 (spell_length _) (by decide)
  rw [Nat.zero_add] at hp
  have habs : ∀ neg, parseAbs P neg (spell (t :: l)) = if neg then (if total (t :: l) ≤ 2 ^ 63 then some (-(total (t :: l) : Int)) else none)
      else if total (t :: l) < 2 ^ 63 then some (total (t :: l) : Int) else none := by
    intro neg
    unfold parseAbs
    rw [if_neg hne.1, if_neg hne.2, hp]
    generalize total (t :: l) = n
    by_cases h1 : n ≤ 2 ^ 63
    · rw [if_pos h1]
      cases neg with
      | true => simp only [if_true]; rw [if_pos h1]
      | false =>
        simp only [Bool.false_eq_true, if_false]
        by_cases h2 : n < 2 ^ 63
        · rw [if_neg (by omega), if_pos h2]
        · rw [if_pos (by omega), if_neg h2]
    · rw [if_neg h1]
      cases neg with
      | true => simp only [if_true]; rw [if_neg h1]
      | false => simp only [Bool.false_eq_true, if_false]; rw [if_neg (by omega)]
  refine ⟨?_, ?_, ?_⟩
  · refine Eq.trans ?_ (habs false)
    rw [hs]
    unfold parseDur
    split
    · rename_i h; injection h with h _; subst h; exact absurd hc (by decide)
    · rename_i h; injection h with h _; subst h; exact absurd hc (by decide)
    · rfl
  · exact habs false
  · exact habs true

/-- The fractions that need no rounding. -/
def plain : Product := ⟨fun f unit k => f * (unit / 10 ^ k), fun _ _ _ _ _ _ => rfl⟩

example : parseDur plain (lit "30m1h2m") = some 5520000000000 := by decide +kernel
example : parseDur plain (lit "2562047h48m") = none ∧ parseDur plain (lit "2562047h") = some 9223369200000000000 := by decide +kernel

end Verif.Enc.DurRead

import Verif.Base
/-!
# Decimal text (`strconv.FormatInt`, `strconv.ParseInt`, `strconv.ParseUint`, base 10, 64 bits)

These are standard library functions; the definitions below are their documented behaviour. Strings are lists of characters.
-/
set_option autoImplicit false
namespace Verif.Strconv

/-- A string of valid Unicode. -/
abbrev Str := List Char

/-- One decimal digit. Used in enc/numeric.go L35, L69-78, L95-101. -/
def digit (n : Nat) : Char := Char.ofNat (48 + n)

/-- The value of a decimal digit. Used in enc/numeric.go L35, L69-78, L95-101. -/
def digitVal (c : Char) : Option Nat :=
  if '0' ≤ c ∧ c ≤ '9' then some (c.toNat - 48) else none

/-- `c` is a decimal digit. Used in enc/numeric.go L35, L69-78, L95-101. -/
def isDigit (c : Char) : Bool := decide ('0' ≤ c ∧ c ≤ '9')

/-- A natural number in decimal, without leading zeros. Used in enc/numeric.go L35, L69-78, L95-101. -/
def fmtNat (n : Nat) : Str :=
  if h : n < 10 then [digit n] else fmtNat (n / 10) ++ [digit (n % 10)]
decreasing_by omega

/-- `strconv.FormatInt(i, 10)`. Used in enc/numeric.go L35, L69-78, L95-101. -/
def fmtInt (i : Int) : Str :=
  if i < 0 then '-' :: fmtNat i.natAbs else fmtNat i.natAbs

/-- The number written by a list of digits, on top of an accumulator; `none` if some character is not a digit. Used in enc/numeric.go L35, L69-78, L95-101. -/
def digitsVal (acc : Nat) : Str → Option Nat
  | [] => some acc
  | c :: cs => match digitVal c with
    | some d => digitsVal (10 * acc + d) cs
    | none => none

/-- Non-empty decimal digits. Used in enc/numeric.go L35, L69-78, L95-101. -/
def parseNat (s : Str) : Option Nat :=
  match s with
  | [] => none
  | s => digitsVal 0 s

/-- `strconv.ParseUint(s, 10, 64)`: digits only, at most `2^64 - 1`. Used in enc/numeric.go L74-78. -/
def parseUint (s : Str) : Option Nat :=
  match parseNat s with
  | some n => if n < 2 ^ 64 then some n else none
  | none => none

/-- `strconv.ParseInt(s, 10, 64)`: an optional sign and digits, within `int64`. Used in enc/numeric.go L35, L69-78, L95-101. -/
def parseInt (s : Str) : Option Int :=
  match s with
  | '-' :: r => match parseNat r with
    | some n => if n ≤ 2 ^ 63 then some (-(n : Int)) else none
    | none => none
  | '+' :: r => match parseNat r with
    | some n => if n < 2 ^ 63 then some (n : Int) else none
    | none => none
  | r => match parseNat r with
    | some n => if n < 2 ^ 63 then some (n : Int) else none
    | none => none

/-! ### lemmas -/

theorem digit_facts (n : Nat) (h : n < 10) : digitVal (digit n) = some n ∧ isDigit (digit n) = true ∧ digit n ≠ '-' ∧ digit n ≠ '+' ∧ digit n ≠ '.'
    ∧ (digit n = '0' ↔ n = 0) ∧ digit n ≠ 'e' ∧ digit n ≠ 'E' := by
  have : ∀ m, m < 10 → digitVal (digit m) = some m ∧ isDigit (digit m) = true ∧ digit m ≠ '-' ∧ digit m ≠ '+' ∧ digit m ≠ '.'
    ∧ (digit m = '0' ↔ m = 0) ∧ digit m ≠ 'e' ∧ digit m ≠ 'E' := by decide
  exact this n h

theorem fmtNat_ne_nil (n : Nat) : fmtNat n ≠ [] := by
  unfold fmtNat; split <;> simp

theorem fmtNat_digits (n : Nat) : ∀ c ∈ fmtNat n, isDigit c = true := by
  induction n using Nat.strongRecOn with
  | ind n ih =>
    unfold fmtNat
    split
    · rename_i h; simpa using (digit_facts n h).2.1
    · intro c hc
      rcases List.mem_append.1 hc with hc | hc
      · exact ih (n / 10) (by omega) c hc
      · simp at hc; subst hc; exact (digit_facts _ (by omega)).2.1

/-- Without leading zeros: the first digit is zero only for the number zero. -/
theorem fmtNat_head (n : Nat) : ∃ c cs, fmtNat n = c :: cs ∧ (c = '0' → n = 0 ∧ cs = []) := by
  induction n using Nat.strongRecOn with
  | ind n ih =>
    unfold fmtNat
    split
    · rename_i h; exact ⟨_, _, rfl, fun h0 => ⟨(digit_facts n h).2.2.2.2.2.1.1 h0, rfl⟩⟩
    · obtain ⟨c, cs, he, hz⟩ := ih (n / 10) (by omega)
      refine ⟨c, cs ++ [digit (n % 10)], by rw [he]; rfl, fun h0 => ?_⟩
      have := (hz h0).1; omega

theorem digitsVal_append (a b : Str) (acc : Nat) : digitsVal acc (a ++ b) = (digitsVal acc a).bind (fun x => digitsVal x b) := by
  induction a generalizing acc with
  | nil => rfl
  | cons c cs ih =>
    simp only [List.cons_append, digitsVal]
    cases digitVal c with
    | none => rfl
    | some d => exact ih _

theorem digitsVal_fmtNat (n : Nat) : digitsVal 0 (fmtNat n) = some n := by
  induction n using Nat.strongRecOn with
  | ind n ih =>
    unfold fmtNat
    split
    · rename_i h; simp [digitsVal, (digit_facts n h).1]
    · rw [digitsVal_append, ih (n / 10) (by omega)]
      simp [digitsVal, (digit_facts (n % 10) (by omega)).1]; omega

theorem parseNat_fmtNat (n : Nat) : parseNat (fmtNat n) = some n := by
  have h := digitsVal_fmtNat n
  have hn := fmtNat_ne_nil n
  unfold parseNat
  split
  · contradiction
  · exact h

theorem fmtNat_no_sign (n : Nat) : ∀ r, fmtNat n ≠ '-' :: r ∧ fmtNat n ≠ '+' :: r := by
  intro r
  constructor <;> intro h
  · have := fmtNat_digits n '-' (by rw [h]; simp); revert this; decide
  · have := fmtNat_digits n '+' (by rw [h]; simp); revert this; decide

/-- Reading back what was written. -/
theorem parseInt_fmtInt (i : Int) (lo : -2 ^ 63 ≤ i) (hi : i < 2 ^ 63) : parseInt (fmtInt i) = some i := by
  unfold fmtInt
  split
  · simp only [parseInt, parseNat_fmtNat]
    rw [if_pos (by omega)]
    congr 1; omega
  · unfold parseInt
    split
    · rename_i h; exact absurd h (fmtNat_no_sign _ _).1
    · rename_i h; exact absurd h (fmtNat_no_sign _ _).2
    · rw [parseNat_fmtNat]; simp only
      rw [if_pos (by omega)]
      congr 1; omega

theorem parseUint_fmtInt (i : Int) (lo : 0 ≤ i) (hi : i < 2 ^ 64) : parseUint (fmtInt i) = some i.toNat := by
  unfold fmtInt
  rw [if_neg (by omega)]
  simp only [parseUint, parseNat_fmtNat]
  rw [if_pos (by omega)]
  congr 1; omega

theorem fmtNat_inj (a b : Nat) (h : fmtNat a = fmtNat b) : a = b := by
  have := digitsVal_fmtNat a
  rw [h, digitsVal_fmtNat] at this
  injection this with this; exact this.symm

theorem fmtInt_inj (a b : Int) (h : fmtInt a = fmtInt b) : a = b := by
  unfold fmtInt at h
  split at h <;> split at h
  · injection h with _ h; have := fmtNat_inj _ _ h; omega
  · exact absurd h.symm (fmtNat_no_sign _ _).1
  · exact absurd h (fmtNat_no_sign _ _).1
  · have := fmtNat_inj _ _ h; omega

example : fmtInt (-1203) = "-1203".toList := by simp [fmtInt, fmtNat, digit]
example : parseInt "+9223372036854775807".toList = some (2 ^ 63 - 1) := by decide
example : parseInt "9223372036854775808".toList = none := by decide
example : parseInt "-9223372036854775808".toList = some (-2 ^ 63) := by decide
example : parseUint "-1".toList = none := by decide

end Verif.Strconv

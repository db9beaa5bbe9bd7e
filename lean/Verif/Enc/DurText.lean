import Verif.Enc.Rfc3339
/-!
# Durations as text (C140)

`enc.Duration` is written with `time.Duration.String` and read with `time.ParseDuration` (enc/time.go L70-124). Here the parameters `dStr` and `dParse` of the model are replaced by what package `time` does; of
it only a product of floats, taken for fractions, stays a parameter.
-/
set_option autoImplicit false
namespace Verif.Enc.DurText
open Verif.Strconv Verif.Enc Verif.Enc.Rfc3339

/-- The units of `time.ParseDuration`, in nanoseconds; there are two micro signs. Reached from enc/time.go L108. -/
def unitOf (s : Str) : Option Nat :=
  if s = lit "ns" then some 1
  else if s = lit "us" ∨ s = [Char.ofNat 0xb5, 's'] ∨ s = [Char.ofNat 0x3bc, 's'] then some 1000
  else if s = lit "ms" then some 1000000
  else if s = lit "s" then some 1000000000
  else if s = lit "m" then some 60000000000
  else if s = lit "h" then some 3600000000000
  else none

/-- `fmtFrac` of package `time`: the last `w` digits of `u` after a point, without trailing zeros; nothing if there are none. Reached from enc/time.go L85. -/
def fracText (w u : Nat) : Str :=
  match ((pad w (u % 10 ^ w)).reverse.dropWhile (· = '0')).reverse with
  | [] => []
  | ds => '.' :: ds

/-- `Duration.String` without the sign. Reached from enc/time.go L85, L101. -/
def absText (u : Nat) : Str :=
  if u = 0 then lit "0s"
  else if u < 1000 then fmtNat u ++ lit "ns"
  else if u < 1000000 then fmtNat (u / 1000) ++ (fracText 3 u ++ [Char.ofNat 0xb5, 's'])
  else if u < 1000000000 then fmtNat (u / 1000000) ++ (fracText 6 u ++ lit "ms")
  else
    let sec := u / 1000000000
    let tail := fmtNat (sec % 60) ++ (fracText 9 u ++ lit "s")
    if sec / 60 = 0 then tail
    else if sec / 3600 = 0 then fmtNat (sec / 60 % 60) ++ (lit "m" ++ tail)
    else fmtNat (sec / 3600) ++ (lit "h" ++ (fmtNat (sec / 60 % 60) ++ (lit "m" ++ tail)))

/-- `Duration.String`. Called at enc/time.go L85. -/
def text (d : Int) : Str := if d < 0 then '-' :: absText d.natAbs else absText d.natAbs

/-- `leadingInt` of package `time`: leading digits, up to `2^63`. Reached from enc/time.go L108. -/
def leadInt (x : Nat) : Str → Option (Nat × Str)
  | [] => some (x, [])
  | c :: s => match digitVal c with
    | none => some (x, c :: s)
    | some d => if x > 2 ^ 63 / 10 then none else if 10 * x + d > 2 ^ 63 then none else leadInt (10 * x + d) s

/-- `leadingFraction` of package `time`: digits, of which those that would overflow are skipped; `k` counts the others. Reached from enc/time.go L108. -/
def leadFrac (x k : Nat) (over : Bool) : Str → Nat × Nat × Str
  | [] => (x, k, [])
  | c :: s => match digitVal c with
    | none => (x, k, c :: s)
    | some d =>
      if over then leadFrac x k true s
      else if x > (2 ^ 63 - 1) / 10 then leadFrac x k true s
      else if 10 * x + d > 2 ^ 63 then leadFrac x k true s
      else leadFrac (10 * x + d) (k + 1) false s

/-- The last digit that fits is taken; those after it are skipped. -/
example : leadFrac 922337203685477580 18 false (lit "77s") = (9223372036854775807, 19, lit "s") ∧ leadFrac 922337203685477580 18 false (lit "8") = (9223372036854775808, 19, []) ∧
    leadFrac 922337203685477580 18 false (lit "9m") = (922337203685477580, 18, lit "m") ∧ leadFrac 922337203685477581 18 false (lit "0") = (922337203685477581, 18, []) := by decide +kernel

/-- The characters of a unit. Reached from enc/time.go L108. -/
def unitChar (c : Char) : Bool := !(c = '.' || isDigit c)

/-- `uint64(float64(f) * (float64(unit) / 10^k))` in `time.ParseDuration`, at least where all the floats are integers. Reached from enc/time.go L108. -/
structure Product where
  mul : Nat → Nat → Nat → Nat
  exact : ∀ f unit k, unit ≤ 3600000000000 → 10 ^ k ∣ unit → f < 10 ^ k → mul f unit k = f * (unit / 10 ^ k)

/-- The fraction of a number: its digits, how many they are, what follows, and whether there is a digit. Reached from enc/time.go L108. -/
def fracPart (s : Str) : Nat × Nat × Str × Bool :=
  match s with
  | '.' :: s2 => let r := leadFrac 0 0 false s2; (r.1, r.2.1, r.2.2, decide (s2.length ≠ r.2.2.length))
  | _ => (0, 0, s, false)

/-- One number with its unit, in nanoseconds, and what follows. Reached from enc/time.go L108. -/
def part (P : Product) (s : Str) : Option (Nat × Str) :=
  match s with
  | [] => none
  | c :: _ =>
    if c = '.' ∨ isDigit c = true then
      match leadInt 0 s with
      | none => none
      | some (v, s1) =>
        let pre := decide (s.length ≠ s1.length)
        let fr := fracPart s1
        if pre || fr.2.2.2 then
          match unitOf (fr.2.2.1.takeWhile unitChar) with
          | none => none
          | some unit =>
            if v > 2 ^ 63 / unit then none
            else
              let v' := if fr.1 > 0 then v * unit + P.mul fr.1 unit fr.2.1 else v * unit
              if fr.1 > 0 ∧ v' > 2 ^ 63 then none else some (v', fr.2.2.1.dropWhile unitChar)
        else none
    else none

/-- The loop of `time.ParseDuration`; every part takes at least one character. Reached from enc/time.go L108. -/
def parts (P : Product) : Nat → Nat → Str → Option Nat
  | _, d, [] => some d
  | 0, _, _ => none
  | fuel + 1, d, s => match part P s with
    | none => none
    | some (v, r) => if d + v > 2 ^ 63 then none else parts P fuel (d + v) r

/-- `time.ParseDuration` after the sign. Called at enc/time.go L108. -/
def parseAbs (P : Product) (neg : Bool) (s : Str) : Option Int :=
  if s = ['0'] then some 0
  else if s = [] then none
  else match parts P s.length 0 s with
    | none => none
    | some d => if neg then some (-(d : Int)) else if d > 2 ^ 63 - 1 then none else some (d : Int)

/-- `time.ParseDuration`. Called at enc/time.go L108. -/
def parseDur (P : Product) (s : Str) : Option Int :=
  match s with
  | '-' :: r => parseAbs P true r
  | '+' :: r => parseAbs P false r
  | s => parseAbs P false s

/-! ### lemmas -/

theorem digitVal_isDigit (c : Char) : (∃ d, digitVal c = some d) ↔ isDigit c = true := by
  unfold digitVal isDigit
  split <;> simp_all

theorem digitVal_none (c : Char) (h : isDigit c = false) : digitVal c = none := by
  cases hd : digitVal c with
  | none => rfl
  | some d => rw [(digitVal_isDigit c).1 ⟨d, hd⟩] at h; cases h

theorem digitVal_lt (c : Char) (d : Nat) (h : digitVal c = some d) : d < 10 := by
  unfold digitVal at h
  split at h
  · rename_i hc
    injection h with h
    have h2 : c.toNat ≤ 57 := by have := hc.2; rw [Char.le_def] at this; exact this
    omega
  · cases h

theorem digitsVal_ge (ds : Str) (acc n : Nat) (h : digitsVal acc ds = some n) : acc ≤ n := by
  induction ds generalizing acc with
  | nil => rw [digitsVal] at h; injection h with h; omega
  | cons c ds ih =>
    rw [digitsVal] at h
    split at h
    · have := ih _ h; omega
    · cases h

theorem digitsVal_lt (ds : Str) (acc n : Nat) (h : digitsVal acc ds = some n) : n < (acc + 1) * 10 ^ ds.length := by
  induction ds generalizing acc with
  | nil => rw [digitsVal] at h; injection h with h; simp; omega
  | cons c ds ih =>
    rw [digitsVal] at h
    split at h
    · rename_i d hd
      have h1 := ih _ h
      have h2 := digitVal_lt c d hd
      refine Nat.lt_of_lt_of_le h1 ?_
      rw [List.length_cons, Nat.pow_succ, Nat.mul_comm (10 ^ ds.length) 10, ← Nat.mul_assoc]
      exact Nat.mul_le_mul_right _ (by omega)
    · cases h

/-- What may follow a number. -/
def Stop (s : Str) : Prop := ∀ c r, s = c :: r → isDigit c = false

theorem leadInt_digits (ds r : Str) (acc n : Nat) (h : digitsVal acc ds = some n) (hn : n ≤ 2 ^ 63) (hr : Stop r) : leadInt acc (ds ++ r) = some (n, r) := by
  induction ds generalizing acc with
  | nil =>
    rw [digitsVal] at h; injection h with h; subst h
    cases r with
    | nil => rfl
    | cons c r => simp only [List.nil_append, leadInt, digitVal_none c (hr c r rfl)]
  | cons c ds ih =>
    rw [digitsVal] at h
    split at h
    · rename_i d hd
      have := digitsVal_ge _ _ _ h
      simp only [List.cons_append, leadInt, hd]
      rw [if_neg (by omega), if_neg (by omega)]
      exact ih _ h
    · cases h

theorem leadFrac_digits (ds r : Str) (acc k n : Nat) (h : digitsVal acc ds = some n) (hn : n ≤ 10 ^ 9) (hr : Stop r) :
    leadFrac acc k false (ds ++ r) = (n, k + ds.length, r) := by
  induction ds generalizing acc k with
  | nil =>
    rw [digitsVal] at h; injection h with h; subst h
    cases r with
    | nil => rfl
    | cons c r => simp only [List.nil_append, leadFrac, digitVal_none c (hr c r rfl)]; rfl
  | cons c ds ih =>
    rw [digitsVal] at h
    split at h
    · rename_i d hd
      have := digitsVal_ge _ _ _ h
      simp only [List.cons_append, leadFrac, hd, Bool.false_eq_true, if_false]
      rw [if_neg (by omega), if_neg (by omega), ih _ _ h, List.length_cons]
      congr 2; omega
    · cases h

/-- A text for a fraction of a unit, worth `add` nanoseconds. -/
def IsFrac (unit : Nat) (fr : Str) (add : Nat) : Prop :=
  (fr = [] ∧ add = 0) ∨ ∃ ds m, fr = '.' :: ds ∧ ds ≠ [] ∧ digitsVal 0 ds = some m ∧ ds.length ≤ 9 ∧ 10 ^ ds.length ∣ unit ∧ m * (unit / 10 ^ ds.length) = add

theorem isFrac_text (w u : Nat) (hw : 0 < w) (h9 : w ≤ 9) : IsFrac (10 ^ w) (fracText w u) (u % 10 ^ w) := by
  obtain ⟨k, hk⟩ := trim_split (pad w (u % 10 ^ w))
  have hlen := pad_length w (u % 10 ^ w) hw (Nat.mod_lt _ (Nat.pow_pos (by decide)))
  have hval := digitsVal_pad w (u % 10 ^ w)
  unfold fracText
  generalize (List.dropWhile (fun x => decide (x = '0')) (pad w (u % 10 ^ w)).reverse).reverse = ds at hk
  rw [hk] at hlen hval
  rw [digitsVal_append] at hval
  rw [List.length_append, List.length_replicate] at hlen
  cases ds with
  | nil =>
    rw [digitsVal, Option.bind_some, digitsVal_acc_zeros] at hval
    injection hval with hval
    exact .inl ⟨rfl, by simpa using hval.symm⟩
  | cons d ds =>
    cases hv : digitsVal 0 (d :: ds) with
    | none => rw [hv] at hval; cases hval
    | some m =>
      rw [hv, Option.bind_some, digitsVal_acc_zeros] at hval
      injection hval with hval
      refine .inr ⟨d :: ds, m, rfl, by simp, hv, by omega, Nat.pow_dvd_pow 10 (by omega), ?_⟩
      rw [← hval, Nat.pow_div (by omega) (by decide)]
      congr 2; omega

/-- What may follow a part: nothing, or a digit. -/
def Next (s : Str) : Prop := ∀ c r, s = c :: r → unitChar c = false

theorem next_digits (n : Nat) (s : Str) : Next (fmtNat n ++ s) := by
  intro c r h
  obtain ⟨c', cs, he, _⟩ := fmtNat_head n
  rw [he] at h
  injection h with h _
  subst h
  simp [unitChar, fmtNat_digits n c' (by rw [he]; simp)]

theorem takeWhile_name (name rest : Str) (hn : ∀ c ∈ name, unitChar c = true) (hr : Next rest) :
    (name ++ rest).takeWhile unitChar = name ∧ (name ++ rest).dropWhile unitChar = rest := by
  rw [List.takeWhile_append_of_pos hn, List.dropWhile_append_of_pos hn]
  cases rest with
  | nil => simp
  | cons c r => simp [hr c r rfl]

theorem part_text (P : Product) (v unit add : Nat) (fr name rest : Str) (hu : unitOf name = some unit) (hname : ∀ c ∈ name, unitChar c = true) (hne : name ≠ []) (hf : IsFrac unit fr add)
    (hun : 0 < unit) (hunit : unit ≤ 3600000000000) (hr : Next rest) (hb : v * unit + add ≤ 2 ^ 63) : part P (fmtNat v ++ (fr ++ (name ++ rest))) = some (v * unit + add, rest) := by
  obtain ⟨c, cs, he, _⟩ := fmtNat_head v
  have hc : isDigit c = true := fmtNat_digits v c (by rw [he]; simp)
  obtain ⟨n1, n2, hn12⟩ : ∃ a b, name = a :: b := by cases name with
    | nil => exact absurd rfl hne
    | cons a b => exact ⟨a, b, rfl⟩
  have hn1 : unitChar n1 = true := hname n1 (by rw [hn12]; simp)
  have hn1' : isDigit n1 = false ∧ n1 ≠ '.' := by
    simp [unitChar] at hn1
    exact ⟨hn1.2, hn1.1⟩
  have hv : v ≤ 2 ^ 63 / unit := by
    rw [Nat.le_div_iff_mul_le hun]; omega
  have hv63 : v ≤ 2 ^ 63 := Nat.le_trans hv (Nat.div_le_self _ _)
  have hstopname : Stop (name ++ rest) := by
    intro a b h
    rw [hn12] at h; injection h with h _; subst h; exact hn1'.1
  have hstop : Stop (fr ++ (name ++ rest)) := by
    rcases hf with ⟨rfl, _⟩ | ⟨ds, m, rfl, _⟩
    · exact hstopname
    · intro a b h; injection h with h _; subst h; decide
  have hlead := leadInt_digits (fmtNat v) (fr ++ (name ++ rest)) 0 v (digitsVal_fmtNat v) hv63 hstop
  have hlen : (fmtNat v ++ (fr ++ (name ++ rest))).length ≠ (fr ++ (name ++ rest)).length := by
    have : (fmtNat v).length = cs.length + 1 := by rw [he]; rfl
    simp [this]
  obtain ⟨htw, hdw⟩ := takeWhile_name name rest hname hr
  have hpart : ∀ s, s = fmtNat v ++ (fr ++ (name ++ rest)) → part P s = some (v * unit + add, rest) := by
    intro s hs
    cases s with
    | nil => rw [he] at hs; cases hs
    | cons c' cs' =>
      have hc' : isDigit c' = true := by
        rw [he] at hs; injection hs with hs _; subst hs; exact hc
      rw [← hs] at hlead hlen
      simp only [part, hc', or_true, if_true, hlead, hlen, ne_eq, not_false_eq_true, decide_true, Bool.true_or]
      rcases hf with ⟨rfl, rfl⟩ | ⟨ds, m, rfl, hds, hm, h9, hdvd, hadd⟩
      · have : fracPart ([] ++ (name ++ rest)) = (0, 0, name ++ rest, false) := by
          rw [hn12]
          simp only [List.nil_append, List.cons_append, fracPart]
          split
          · rename_i heq; injection heq with heq _; exact absurd heq hn1'.2
          · rfl
        rw [this]
        simp only [htw, hdw, hu]
        rw [if_neg (by omega)]
        simp
      · have hm9 : m < 10 ^ ds.length := by simpa using digitsVal_lt ds 0 m hm
        have hm9' : m ≤ 10 ^ 9 := Nat.le_of_lt (Nat.lt_of_lt_of_le hm9 (Nat.pow_le_pow_right (by decide) h9))
        have hlf := leadFrac_digits ds (name ++ rest) 0 0 m hm hm9' hstopname
        simp only [List.cons_append, fracPart, hlf, htw, hdw, hu, Nat.zero_add]
        rw [if_neg (by omega)]
        by_cases hm0 : m > 0
        · simp only [hm0, if_true, true_and, P.exact m unit ds.length hunit hdvd hm9, hadd]
          rw [if_neg (by omega)]
        · have : m = 0 := by omega
          subst this
          have : add = 0 := by rw [← hadd]; simp
          subst this
          simp
  exact hpart _ rfl

theorem parts_nil (P : Product) (fuel d : Nat) : parts P fuel d [] = some d := by cases fuel <;> rfl

theorem parts_step (P : Product) (fuel d v : Nat) (s r : Str) (h : part P s = some (v, r)) (hb : d + v ≤ 2 ^ 63) : parts P (fuel + 1) d s = parts P fuel (d + v) r := by
  cases s with
  | nil => cases h
  | cons c s => simp only [parts, h]; rw [if_neg (by omega)]

theorem next_nil : Next [] := fun _ _ h => nomatch h

theorem isFrac_none (unit : Nat) : IsFrac unit [] 0 := .inl ⟨rfl, rfl⟩

/-- What is read of the text without the sign. -/
theorem parts_text (P : Product) (u fuel : Nat) (hu : u ≤ 2 ^ 63) : parts P (fuel + 3) 0 (absText u) = some u := by
  have one : ∀ (fuel d v unit add : Nat) (fr name : Str), unitOf name = some unit → (∀ c ∈ name, unitChar c = true) → name ≠ [] → IsFrac unit fr add → 0 < unit → unit ≤ 3600000000000 →
      d + (v * unit + add) ≤ 2 ^ 63 → parts P (fuel + 1) d (fmtNat v ++ (fr ++ name)) = some (d + (v * unit + add)) := by
    intro fuel d v unit add fr name h1 h2 h3 h4 h5 h6 h7
    have := part_text P v unit add fr name [] h1 h2 h3 h4 h5 h6 next_nil (by omega)
    rw [List.append_nil] at this
    rw [parts_step P fuel d _ _ _ this h7, parts_nil]
  have hns : ∀ c ∈ lit "ns", unitChar c = true := by decide
  have hus : ∀ c ∈ [Char.ofNat 0xb5, 's'], unitChar c = true := by decide
  have hms : ∀ c ∈ lit "ms", unitChar c = true := by decide
  have hs : ∀ c ∈ lit "s", unitChar c = true := by decide
  have hm : ∀ c ∈ lit "m", unitChar c = true := by decide
  have hh : ∀ c ∈ lit "h", unitChar c = true := by decide
  unfold absText
  split
  · rename_i h0; subst h0
    have := one (fuel + 2) 0 0 1000000000 0 [] (lit "s") (by decide) hs (by decide) (isFrac_none _) (by decide) (by decide) (by decide)
    have e : fmtNat 0 ++ ([] ++ lit "s") = lit "0s" := by rw [fmtNat]; rfl
    rw [e] at this
    simpa using this
  split
  · have := one (fuel + 2) 0 u 1 0 [] (lit "ns") (by decide) hns (by decide) (isFrac_none _) (by decide) (by decide) (by omega)
    rw [List.nil_append] at this
    rw [this]; congr 1; omega
  split
  · have := one (fuel + 2) 0 (u / 1000) 1000 _ _ _ (by decide) hus (by decide) (isFrac_text 3 u (by decide) (by decide)) (by decide) (by decide) (by omega)
    rw [this]; congr 1; omega
  split
  · have := one (fuel + 2) 0 (u / 1000000) 1000000 _ _ (lit "ms") (by decide) hms (by decide) (isFrac_text 6 u (by decide) (by decide)) (by decide) (by decide) (by omega)
    rw [this]; congr 1; omega
  have htail : ∀ fuel d, d + (u / 1000000000 % 60 * 1000000000 + u % 10 ^ 9) ≤ 2 ^ 63 →
      parts P (fuel + 1) d (fmtNat (u / 1000000000 % 60) ++ (fracText 9 u ++ lit "s")) = some (d + (u / 1000000000 % 60 * 1000000000 + u % 10 ^ 9)) := fun fuel d hd =>
    one fuel d (u / 1000000000 % 60) 1000000000 _ _ (lit "s") (by decide) hs (by decide) (isFrac_text 9 u (by decide) (by decide)) (by decide) (by decide) hd
  have hmin : ∀ fuel d, d + (u / 1000000000 / 60 % 60 * 60000000000 + 0) + (u / 1000000000 % 60 * 1000000000 + u % 10 ^ 9) ≤ 2 ^ 63 →
      parts P (fuel + 2) d (fmtNat (u / 1000000000 / 60 % 60) ++ (lit "m" ++ (fmtNat (u / 1000000000 % 60) ++ (fracText 9 u ++ lit "s"))))
        = some (d + (u / 1000000000 / 60 % 60 * 60000000000 + 0) + (u / 1000000000 % 60 * 1000000000 + u % 10 ^ 9)) := by
    intro fuel d hd
    have := part_text P (u / 1000000000 / 60 % 60) 60000000000 0 [] (lit "m") (fmtNat (u / 1000000000 % 60) ++ (fracText 9 u ++ lit "s")) (by decide) hm (by decide) (isFrac_none _) (by decide) (by decide)
      (next_digits _ _) (by omega)
    rw [List.nil_append] at this
    rw [parts_step P (fuel + 1) d _ _ _ this (by omega), htail fuel _ hd]
  simp only
  split
  · rename_i h60
    rw [htail (fuel + 2) 0 (by omega)]
    congr 1; omega
  split
  · rename_i h60 h3600
    rw [hmin (fuel + 1) 0 (by omega)]
    congr 1; omega
  · rename_i h60 h3600
    have := part_text P (u / 1000000000 / 3600) 3600000000000 0 [] (lit "h") (fmtNat (u / 1000000000 / 60 % 60) ++ (lit "m" ++ (fmtNat (u / 1000000000 % 60) ++ (fracText 9 u ++ lit "s"))))
      (by decide) hh (by decide) (isFrac_none _) (by decide) (by decide) (next_digits _ _) (by omega)
    rw [List.nil_append] at this
    rw [parts_step P (fuel + 2) 0 _ _ _ this (by omega), hmin fuel _ (by omega)]
    congr 1; omega

theorem absText_long (u : Nat) : ∃ c a r, absText u = c :: a :: r ∧ isDigit c = true := by
  have app : ∀ (n : Nat) (s : Str), s ≠ [] → ∃ c a r, fmtNat n ++ s = c :: a :: r ∧ isDigit c = true := by
    intro n s hs
    obtain ⟨c, cs, he, _⟩ := fmtNat_head n
    have hc : isDigit c = true := fmtNat_digits n c (by rw [he]; simp)
    rw [he]
    cases cs with
    | nil => cases s with
      | nil => exact absurd rfl hs
      | cons a s => exact ⟨c, a, s, rfl, hc⟩
    | cons a cs => exact ⟨c, a, cs ++ s, rfl, hc⟩
  have hne : ∀ (a b : Str), b ≠ [] → a ++ b ≠ [] := fun a b hb h => hb (List.append_eq_nil_iff.1 h).2
  unfold absText
  split
  · exact ⟨'0', 's', [], rfl, by decide⟩
  split
  · exact app _ _ (by decide)
  split
  · exact app _ _ (hne _ _ (by decide))
  split
  · exact app _ _ (hne _ _ (by decide))
  simp only
  split
  · exact app _ _ (hne _ _ (by decide))
  split
  · exact app _ _ (by simp [lit])
  · exact app _ _ (by simp [lit])

theorem parts_fuel (P : Product) (f f' d n : Nat) (s : Str) (hf : f ≤ f') (h : parts P f d s = some n) : parts P f' d s = some n := by
  induction f generalizing f' d s with
  | zero => cases s with
    | nil => rw [parts_nil] at h ⊢; exact h
    | cons c s => cases h
  | succ f ih => cases s with
    | nil => rw [parts_nil] at h ⊢; exact h
    | cons c s =>
      obtain ⟨f'', rfl⟩ : ∃ k, f' = k + 1 := ⟨f' - 1, by omega⟩
      simp only [parts] at h ⊢
      split at h
      · cases h
      · split at h
        · cases h
        · rename_i hb
          rw [if_neg hb]
          exact ih f'' _ _ (by omega) h

theorem part_shorter (P : Product) (s r : Str) (v : Nat) (h : part P s = some (v, r)) : r.length < s.length := by
  have lead : ∀ (s : Str) (x n : Nat) (r : Str), leadInt x s = some (n, r) → r.length ≤ s.length := by
    intro s
    induction s with
    | nil => intro x n r h; cases h; simp
    | cons c s ih =>
      intro x n r h
      rw [leadInt] at h
      split at h
      · cases h; simp
      · split at h
        · cases h
        · split at h
          · cases h
          · have := ih _ _ _ h; simp; omega
  have lfrac : ∀ (s : Str) (x k : Nat) (o : Bool), (leadFrac x k o s).2.2.length ≤ s.length := by
    intro s
    induction s with
    | nil => intro x k o; simp [leadFrac]
    | cons c s ih =>
      intro x k o
      rw [leadFrac]
      split
      · simp
      · split
        · have := ih x k true; simp; omega
        · split
          · have := ih x k true; simp; omega
          · split
            · have := ih x k true; simp; omega
            · rename_i d _ _ _ _; have := ih (10 * x + d) (k + 1) false; simp; omega
  have hfp : ∀ s, (fracPart s).2.2.1.length ≤ s.length := by
    intro s
    unfold fracPart
    split
    · rename_i s2; have := lfrac s2 0 0 false; simp; omega
    · simp
  have drop : ∀ s : Str, unitOf (s.takeWhile unitChar) ≠ none → (s.dropWhile unitChar).length < s.length := by
    intro s hs
    cases s with
    | nil => exact absurd rfl hs
    | cons c s =>
      cases hc : unitChar c with
      | false => simp only [List.takeWhile_cons, hc] at hs; exact absurd rfl hs
      | true =>
        have : (s.dropWhile unitChar).length ≤ s.length := (List.dropWhile_sublist _).length_le
        simp [hc]; omega
  unfold part at h
  split at h
  · cases h
  · split at h
    · split at h
      · cases h
      · rename_i n s1 hl
        simp only at h
        split at h
        · split at h
          · cases h
          · rename_i unit hu
            split at h
            · cases h
            · have h : r = (fracPart s1).2.2.1.dropWhile unitChar := by
                split at h
                · split at h
                  · cases h
                  · injection h with h; injection h with _ h; exact h.symm
                · split at h
                  · cases h
                  · injection h with h; injection h with _ h; exact h.symm
              · subst h
                have h1 := lead _ _ _ _ hl
                have h2 := hfp s1
                have h3 := drop (fracPart s1).2.2.1 (by rw [hu]; simp)
                omega
        · cases h
    · cases h

/-- More steps than characters make no difference. -/
theorem parts_length (P : Product) (f d n : Nat) (s : Str) (h : parts P f d s = some n) : parts P s.length d s = some n := by
  induction f generalizing d s with
  | zero => cases s with
    | nil => exact h
    | cons c s => cases h
  | succ f ih => cases s with
    | nil => exact h
    | cons c s =>
      simp only [parts, List.length_cons] at h ⊢
      split at h
      · cases h
      · rename_i v r hp
        split at h
        · cases h
        · rename_i hb
          have := part_shorter P _ _ _ hp
          rw [if_neg hb]
          exact parts_fuel P r.length s.length _ _ _ (by simp at this; omega) (ih _ _ h)

theorem parseAbs_text (P : Product) (neg : Bool) (u : Nat) (hu : u ≤ 2 ^ 63) (hn : neg = false → u < 2 ^ 63) : parseAbs P neg (absText u) = some (if neg then -(u : Int) else u) := by
  obtain ⟨c, a, r, he, _⟩ := absText_long u
  have hp := parts_length P _ 0 u (absText u) (parts_text P u 0 hu)
  unfold parseAbs
  rw [if_neg (by rw [he]; simp), if_neg (by rw [he]; simp), hp]
  cases neg with
  | true => simp
  | false =>
    have := hn rfl
    simp; omega

/-! ### C140 -/

/-- The texts of durations are those of package `time`. enc/time.go L85, L108. -/
def withDurs (X : Ext) (P : Product) : Ext := { X with dStr := text, dParse := parseDur P }

/-- C140: every duration, the least one included, is read back from its text. -/
theorem C140_text (P : Product) (d : Int) (lo : -2 ^ 63 ≤ d) (hi : d < 2 ^ 63) : parseDur P (text d) = some d := by
  unfold text
  split
  · simp only [parseDur]
    rw [parseAbs_text P true d.natAbs (by omega) (by simp)]
    simp; omega
  · obtain ⟨c, a, r, he, hc⟩ := absText_long d.natAbs
    have : parseDur P (absText d.natAbs) = parseAbs P false (absText d.natAbs) := by
      unfold parseDur
      split
      · rename_i h; rw [he] at h; injection h with h _; subst h; exact absurd hc (by decide)
      · rename_i h; rw [he] at h; injection h with h _; subst h; exact absurd hc (by decide)
      · rfl
    rw [this, parseAbs_text P false d.natAbs (by omega) (by omega)]
    simp; omega

/-- C140: an `enc.Duration` survives its JSON, whatever its value: zero as the empty string, all others as their text. -/
theorem C140_round_trip {X : Ext} (hX : Laws X) (P : Product) (O O' : Order) (H : Handler (withDurs X P)) (d : Int) (lo : -2 ^ 63 ≤ d) (hi : d < 2 ^ 63) :
    ∃ s, marshalJSON (X := withDurs X P) O .encDur d = .ok s ∧ unmarshalJSON H O' .encDur s (zero _ .encDur) = .done d := by
  have hL : Laws (withDurs X P) := ⟨hX.fJson_number, hX.fParse_fJson⟩
  have hf : Faithful (X := withDurs X P) true .encDur d := by
    have := C140_text P d lo hi
    obtain ⟨c, a, r, he, _⟩ := absText_long d.natAbs
    simp only [Faithful, durParse, durText, withDurs]
    by_cases h0 : d = 0
    · subst h0; rfl
    · have hne : text d ≠ [] := by
        unfold text
        split
        · simp
        · simp [he]
      have e : (if d = 0 then [] else text d) = text d := if_neg h0
      simp only [e]
      rw [if_neg hne]; exact this
  obtain ⟨n, h1, h2⟩ := C41_round_trip hL O O' H .encDur d hf
  refine h2 ?_
  simp only [marshal] at h1
  cases h1; simp [Node.depth, maxDepth]

/-- C140: nor does a `Duration` node change on its way into an `enc.Duration`, whatever the variable held. -/
theorem C140_node (X : Ext) (P : Product) (O : Order) (H : Handler (withDurs X P)) (d old : Int) (lo : -2 ^ 63 ≤ d) (hi : d < 2 ^ 63) :
    unmarshal H O .encDur (.dur d) old = .done d := by
  have ht := C140_text P d lo hi
  have hp : (Node.jsonString (.dur d : Node (withDurs X P))).bind (durParse (withDurs X P)) = some d := by
    obtain ⟨c, a, r, he, _⟩ := absText_long d.natAbs
    simp only [Node.jsonString, Option.bind_some, durParse, withDurs]
    by_cases h0 : d = 0
    · subst h0; rfl
    · have hne : text d ≠ [] := by
        unfold text
        split
        · simp
        · simp [he]
      have e : (if d = 0 then [] else text d) = text d := if_neg h0
      simp only [e]
      rw [if_neg hne]; exact ht
  simp only [unmarshal, uEncDur, hp]
  rfl

/-- C140: no two durations have the same text. -/
theorem C140_distinct (d d' : Int) (h : -2 ^ 63 ≤ d ∧ d < 2 ^ 63) (h' : -2 ^ 63 ≤ d' ∧ d' < 2 ^ 63) (he : text d = text d') : d = d' := by
  have P : Product := ⟨fun f unit k => f * (unit / 10 ^ k), fun _ _ _ _ _ _ => rfl⟩
  have := C140_text P d h.1 h.2
  rw [he, C140_text P d' h'.1 h'.2] at this
  injection this with this; exact this.symm

/-- C140: whatever is read is a duration: no text overflows into another value. -/
theorem C140_range (P : Product) (s : Str) (d : Int) (h : parseDur P s = some d) : -2 ^ 63 ≤ d ∧ d < 2 ^ 63 := by
  have hparts : ∀ (f a n : Nat) (s : Str), a ≤ 2 ^ 63 → parts P f a s = some n → n ≤ 2 ^ 63 := by
    intro f
    induction f with
    | zero => intro a n s ha h; cases s with
      | nil => cases h; exact ha
      | cons c s => cases h
    | succ f ih => intro a n s ha h; cases s with
      | nil => cases h; exact ha
      | cons c s =>
        simp only [parts] at h
        split at h
        · cases h
        · split at h
          · cases h
          · exact ih _ _ _ (by omega) h
  have habs : ∀ neg s, parseAbs P neg s = some d → -2 ^ 63 ≤ d ∧ d < 2 ^ 63 := by
    intro neg s h
    unfold parseAbs at h
    split at h
    · cases h; decide
    · split at h
      · cases h
      · split at h
        · cases h
        · rename_i n hn
          have := hparts _ _ _ _ (by decide) hn
          split at h
          · cases h; omega
          · split at h
            · cases h
            · cases h; omega
  unfold parseDur at h
  split at h
  · exact habs _ _ h
  · exact habs _ _ h
  · exact habs _ _ h

/-! ### examples -/

/-- Integers instead of floats. -/
def sampleP : Product := ⟨fun f unit k => f * (unit / 10 ^ k), fun _ _ _ _ _ _ => rfl⟩

example : text 5400000000000 = lit "1h30m0s" ∧ text (-1500) = '-' :: '1' :: '.' :: '5' :: [Char.ofNat 0xb5, 's'] ∧ text 1002000000 = lit "1.002s" ∧ text 0 = lit "0s" ∧ text 999 = lit "999ns"
    ∧ text 12345678 = lit "12.345678ms" := by decide +kernel
example : text (-2 ^ 63) = lit "-2562047h47m16.854775808s" := by decide +kernel
/-- At each unit, and one below. -/
example : text 1000 = '1' :: [Char.ofNat 0xb5, 's'] ∧ text 1000000 = lit "1ms" ∧ text 999999 = lit "999.999" ++ [Char.ofNat 0xb5, 's'] ∧ text 1000000000 = lit "1s" ∧ text 999999999 = lit "999.999999ms"
    ∧ text 60000000000 = lit "1m0s" ∧ text 59999999999 = lit "59.999999999s" ∧ text 3600000000000 = lit "1h0m0s" ∧ text 3599000000000 = lit "59m59s" := by decide +kernel
example : parseDur sampleP (lit "9223372036854775808ns") = none ∧ parseDur sampleP (lit "-9223372036854775808ns") = some (-2 ^ 63) ∧ parseDur sampleP (lit "1h.5m") = some 3630000000000
    ∧ parseDur sampleP (lit "3") = none ∧ parseDur sampleP (lit ".s") = none ∧ parseDur sampleP (lit "1d") = none := by decide +kernel

end Verif.Enc.DurText

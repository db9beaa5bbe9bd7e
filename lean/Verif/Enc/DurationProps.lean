import Verif.Enc.Duration
import Verif.Enc.TypedProps
/-!
# Numbers as durations, texts as times (C123)
-/
set_option autoImplicit false
namespace Verif.Enc.Durations
open Verif.Strconv Verif.Enc

/-- The numbers an `int64` can hold. -/
def Fits (i : Int) : Prop := -2 ^ 63 ≤ i ∧ i < 2 ^ 63

theorem wrap_fits (i : Int) (h : Fits i) : wrap64 i = i := by
  obtain ⟨h1, h2⟩ := h
  unfold wrap64
  rw [BitVec.toInt_ofInt]
  exact Int.bmod_eq_of_le (by omega) (by omega)

theorem fmtInt_notFloat (i : Int) : isFloat (fmtInt i) = false := by
  have key : ∀ c, isDigit c = true → (decide (c = '.') || decide (c = 'e') || decide (c = 'E') || decide (c = 'g') || decide (c = 'G')) = false := by
    intro c hc
    simp only [isDigit, decide_eq_true_eq] at hc
    simp only [Bool.or_eq_false_iff, decide_eq_false_iff_not]
    refine ⟨⟨⟨⟨?_, ?_⟩, ?_⟩, ?_⟩, ?_⟩ <;> (rintro rfl; revert hc; decide)
  unfold isFloat
  rw [List.any_eq_false]
  intro c hc
  rw [Bool.not_eq_true]
  unfold fmtInt at hc
  split at hc
  · rcases List.mem_cons.1 hc with rfl | hc
    · rfl
    · exact key c (fmtNat_digits _ c hc)
  · exact key c (fmtNat_digits _ c hc)

theorem parseInt_big (i : Int) (h : ¬ Fits i) : parseInt (fmtInt i) = none := by
  unfold Fits at h
  unfold fmtInt
  split
  · simp only [parseInt, parseNat_fmtNat]
    rw [if_neg (by omega)]
  · unfold parseInt
    split
    · rename_i h; exact absurd h (fmtNat_no_sign _ _).1
    · rename_i h; exact absurd h (fmtNat_no_sign _ _).2
    · rw [parseNat_fmtNat]; simp only
      rw [if_neg (by omega)]

variable {X : Ext} (mul : X.F → X.F → X.F)

/-- **C123.** So many units are that long, if an `int64` can hold it, also after the number crossed the wire. -/
theorem C123_exact_partial (i unit : Int) (hi : Fits i) (h : Fits (i * unit)) :
    duration mul (.int i : Node X) unit = some (.ok (i * unit)) ∧ duration mul (.digits (fmtInt i) : Node X) unit = some (.ok (i * unit)) := by
  simp only [duration, intDuration, fmtInt_notFloat, Bool.false_eq_true, if_false, mustInteger, parseInt_fmtInt i hi.1 hi.2, wrap_fits _ h, Except.map]
  exact ⟨trivial, trivial⟩

/-- **C123, violated.** If it can not, the result is some other duration, without an error. -/
theorem C123_wrap_violated (i unit : Int) (h : ¬ Fits (i * unit)) : ∃ d, duration mul (.int i : Node X) unit = some (.ok d) ∧ d ≠ i * unit := by
  refine ⟨_, rfl, ?_⟩
  intro e
  apply h
  rw [← e]
  unfold intDuration wrap64 Fits
  have := BitVec.toInt_lt (x := BitVec.ofInt 64 (i * unit))
  have := BitVec.le_toInt (x := BitVec.ofInt 64 (i * unit))
  omega

/-- 9 223 372 037 seconds, less than three hundred years, are a negative duration. -/
example : intDuration 9223372037 1000000000 = -9223372036709551616 := by decide

/-- **C123, violated.** Asking a number that was decoded for its duration panics exactly if it does not fit. -/
theorem C123_panic_violated (i unit : Int) : (∃ e, duration mul (.digits (fmtInt i) : Node X) unit = some (.error e)) ↔ ¬ Fits i := by
  simp only [duration, fmtInt_notFloat, Bool.false_eq_true, if_false, mustInteger]
  by_cases h : Fits i
  · simp [parseInt_fmtInt i h.1 h.2, Except.map, h]
  · simp [parseInt_big i h, Except.map, h]

/-- Such numbers can be decoded. -/
example : decode (X := XT) (lit "9223372036854775808") = some (some (.digits (lit "9223372036854775808"))) ∧
    duration (X := XT) (fun _ b => b) (.digits (lit "9223372036854775808")) 1 = some (.error .explicit) ∧
    duration (X := XT) (fun _ b => b) (.digits (lit "1e999")) 1 = some (.error .explicit) ∧
    duration (X := XT) (fun _ b => b) (.digits (lit "-12")) 1000 = some (.ok (-12000)) := by decide +kernel

/-- **C123.** Texts read as times and durations are what `Must…` makes of them, if the result is read after the call. -/
theorem C123_text_partial (s : Str) :
    (∀ d, mustDuration X s = .ok d ↔ asDuration X .after s = (d, true)) ∧ (∀ t, mustTime X s = .ok t ↔ asTime X .after s = (t, true)) := by
  refine ⟨fun d => ?_, fun t => ?_⟩
  · unfold mustDuration asDuration
    cases durParse X s <;> simp
  · unfold mustTime asTime
    cases X.tParse s <;> simp

/-- **C123.** A text that is none gives zero and an error, in whatever order; the empty text is a duration, zero. -/
theorem C123_none (s : Str) (o : ReadOrder) :
    (∀ e, mustDuration X s = .error e → asDuration X o s = (0, false)) ∧ (∀ e, mustTime X s = .error e → asTime X o s = (X.tZero, false)) ∧ mustDuration X [] = .ok 0 := by
  refine ⟨fun d => ?_, fun t => ?_, by simp [mustDuration, durParse]⟩
  · unfold mustDuration asDuration
    cases durParse X s <;> simp
  · unfold mustTime asTime
    cases X.tParse s <;> simp

example : mustDuration XT (lit "soon") = .error .explicit ∧ asDuration XT .before (lit "soon") = (0, false) ∧ asDuration XT .after (lit "soon") = (0, false) := by decide +kernel

/-- **C123, violated.** Go also allows reading it before the call: then every text that is one gives zero and no error. -/
theorem C123_order_violated (s : Str) : (∀ d, mustDuration X s = .ok d → asDuration X .before s = (0, true)) ∧ (∀ t, mustTime X s = .ok t → asTime X .before s = (X.tZero, true)) := by
  refine ⟨fun d => ?_, fun t => ?_⟩
  · unfold mustDuration asDuration
    cases durParse X s <;> simp
  · unfold mustTime asTime
    cases X.tParse s <;> simp

example : mustDuration XT (lit "42ns") = .ok 42 ∧ asDuration XT .after (lit "42ns") = (42, true) ∧ asDuration XT .before (lit "42ns") = (0, true) := by decide +kernel

end Verif.Enc.Durations

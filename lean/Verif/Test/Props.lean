import Verif.Test.Helpers
/-!
# Properties of the assertion helpers (C102 - C105)
-/
set_option autoImplicit false
namespace Verif.Test
open Verif.Strconv Verif.Enc

/-! ### C102 -/

/-- C102: of a pair of opposite assertions on the same values exactly one passes, whatever prefix is added to the message. -/
theorem C102_opposites (r : Res) (p : Str) :
    ((r.addPrefix p).expectTrue.passed = !(r.addPrefix p).expectFalse.passed) ∧ ((r.addPrefix p).expectTrue.passed = r.expectTrue.passed) := by
  simp only [Res.addPrefix, Res.expectTrue, Res.expectFalse]
  by_cases h : r.succeed = true <;> simp [Verdict.passed, h]

/-- C102: the equality assertion passes exactly for equal texts. -/
theorem C102_equal (e g : Str) : (equal e g).expectTrue.passed = true ↔ e = g := by
  unfold equal; split <;> simp_all [Res.expectTrue, Verdict.passed]

theorem contains_iff (pat s : Str) : contains pat s = true ↔ ∃ a b, s = a ++ pat ++ b := by
  induction s with
  | nil =>
    simp only [contains, decide_eq_true_eq]
    constructor
    · rintro rfl; exact ⟨[], [], rfl⟩
    · rintro ⟨a, b, h⟩
      have := congrArg List.length h; simp at this
      exact List.eq_nil_of_length_eq_zero (by omega)
  | cons c cs ih =>
    simp only [contains, Bool.or_eq_true, ih, List.isPrefixOf_iff_prefix]
    constructor
    · rintro (⟨t, h⟩ | ⟨a, b, h⟩)
      · exact ⟨[], t, by simpa using h.symm⟩
      · exact ⟨c :: a, b, by simp [h]⟩
    · rintro ⟨a, b, h⟩
      cases a with
      | nil => exact .inl ⟨b, by simpa using h.symm⟩
      | cons x a =>
        simp only [List.cons_append, List.cons.injEq] at h
        exact .inr ⟨a, b, h.2⟩

/-- C102: `Contains` passes exactly when the pattern occurs in the text. -/
theorem C102_contains (s pat : Str) : (containsRes s pat).expectTrue.passed = true ↔ ∃ a b, s = a ++ pat ++ b := by
  rw [← contains_iff]
  unfold containsRes; split <;> simp_all [Res.expectTrue, Verdict.passed]

/-! ### C103 -/

/-- The character an escape stands for. -/
def goEsc : Char → Option Char
  | '`' => some '`' | '\\' => some '\\' | 't' => some '\t' | 'r' => some '\r' | 'n' => some '\n' | 'v' => some '\x0b' | _ => none

/-- Reading an escaped text back with Go's escapes; `none` if it is not one. -/
def goUnescape : Str → Option Str
  | [] => some []
  | [c] => if c = '\\' then none else some [c]
  | c :: d :: cs => if c = '\\' then (goEsc d).bind (fun x => (goUnescape cs).map (x :: ·)) else (goUnescape (d :: cs)).map (c :: ·)

/-- What a reader sees for each character. -/
def shownAs (c : Char) : Char := if c = '\n' then '\x0b' else c

theorem goUnescape_quoteChar (c : Char) (cs : Str) : goUnescape (quoteChar c ++ cs) = (goUnescape cs).map (shownAs c :: ·) := by
  by_cases h1 : c = '`'
  · subst h1; simp [quoteChar, goUnescape, goEsc, shownAs]
  by_cases h2 : c = '\\'
  · subst h2; simp [quoteChar, goUnescape, goEsc, shownAs]
  by_cases h3 : c = '\t'
  · subst h3; simp [quoteChar, goUnescape, goEsc, shownAs]
  by_cases h4 : c = '\r'
  · subst h4; simp [quoteChar, goUnescape, goEsc, shownAs]
  by_cases h5 : c = '\n'
  · subst h5; simp [quoteChar, goUnescape, goEsc, shownAs]
  · simp only [quoteChar, h1, h2, h3, h4, h5, if_false, shownAs]
    cases cs <;> simp [goUnescape, h2]

/-- C103 (violated): read with Go's escapes, the quoted text is the original with every newline turned into a vertical tab: the
replacement for a newline is `\v`. -/
theorem C103_newline_violated (s : Str) : goUnescape (s.flatMap quoteChar) = some (s.map shownAs) := by
  induction s with
  | nil => rfl
  | cons c cs ih => rw [List.flatMap_cons, goUnescape_quoteChar, ih]; rfl

/-- The character an escape stands for. -/
def ownEsc : Char → Option Char
  | '`' => some '`' | '\\' => some '\\' | 't' => some '\t' | 'r' => some '\r' | 'v' => some '\n' | _ => none

/-- Reading with this package's own replacements. -/
def ownUnescape : Str → Option Str
  | [] => some []
  | [c] => if c = '\\' then none else some [c]
  | c :: d :: cs => if c = '\\' then (ownEsc d).bind (fun x => (ownUnescape cs).map (x :: ·)) else (ownUnescape (d :: cs)).map (c :: ·)

theorem ownUnescape_quoteChar (c : Char) (cs : Str) : ownUnescape (quoteChar c ++ cs) = (ownUnescape cs).map (c :: ·) := by
  by_cases h1 : c = '`'
  · subst h1; simp [quoteChar, ownUnescape, ownEsc]
  by_cases h2 : c = '\\'
  · subst h2; simp [quoteChar, ownUnescape, ownEsc]
  by_cases h3 : c = '\t'
  · subst h3; simp [quoteChar, ownUnescape, ownEsc]
  by_cases h4 : c = '\r'
  · subst h4; simp [quoteChar, ownUnescape, ownEsc]
  by_cases h5 : c = '\n'
  · subst h5; simp [quoteChar, ownUnescape, ownEsc]
  · simp only [quoteChar, h1, h2, h3, h4, h5, if_false]
    cases cs <;> simp [ownUnescape, h2]

/-- C103 (partial): quoting loses nothing: different texts are shown differently. -/
theorem C103_injective_partial (s t : Str) (h : quote s = quote t) : s = t := by
  have hx : ∀ s : Str, ownUnescape (s.flatMap quoteChar) = some s := by
    intro s
    induction s with
    | nil => rfl
    | cons c cs ih => rw [List.flatMap_cons, ownUnescape_quoteChar, ih]; rfl
  have he : s.flatMap quoteChar = t.flatMap quoteChar := by
    simp only [quote, List.cons.injEq, true_and] at h
    exact List.append_cancel_right h
  have := hx s
  rw [he, hx t] at this
  exact (Option.some.inj this).symm

/-- C103 (partial): the shown text is on one line and without tabs. -/
theorem C103_one_line_partial (s : Str) : '\n' ∉ quote s ∧ '\r' ∉ quote s ∧ '\t' ∉ quote s := by
  have hc : ∀ c x, x ∈ quoteChar c → x ≠ '\n' ∧ x ≠ '\r' ∧ x ≠ '\t' := by
    intro c x hx
    unfold quoteChar at hx
    repeat' split at hx
    all_goals simp at hx
    all_goals first
      | (rcases hx with rfl | rfl <;> decide)
      | (subst hx; exact ⟨by assumption, by assumption, by assumption⟩)
      | (subst hx; decide)
  have : ∀ x ∈ quote s, x ≠ '\n' ∧ x ≠ '\r' ∧ x ≠ '\t' := by
    intro x hx
    simp only [quote, List.mem_cons, List.mem_append, List.mem_flatMap, List.not_mem_nil, or_false] at hx
    rcases hx with rfl | ⟨c, _, hx⟩ | rfl
    · decide
    · exact hc c x hx
    · decide
  exact ⟨fun h => (this _ h).1 rfl, fun h => (this _ h).2.1 rfl, fun h => (this _ h).2.2 rfl⟩

/-! ### C104 -/

/-- A kind whose values can be nil. -/
def Nilable : Kind → Prop
  | .slice | .map | .chan | .ptr | .func | .unsafePtr => True
  | _ => False

/-- C104 (violated): `Nil` fails on a nil function, which is nil. -/
theorem C104_func_violated (len : Nat) (z : Bool) : Nilable .func ∧ isNil (.of .func true len z) = false := ⟨trivial, rfl⟩

/-- C104 (violated): `NoError` accepts an error interface that is not nil but holds a nil pointer, which every `err != nil` test
treats as an error. -/
theorem C104_typed_nil_violated (len : Nat) (z : Bool) : isNil (.of .ptr true len z) = true ∧ GoVal.of .ptr true len z ≠ .nil := ⟨rfl, by simp⟩

/-- C104 (partial): for the other kinds, `Nil` passes exactly for the nil interface and nil slices, maps, channels and pointers. -/
theorem C104_nil_partial (v : GoVal) : isNil v = true ↔ v = .nil ∨ ∃ k len z, v = .of k true len z ∧ (k = .slice ∨ k = .map ∨ k = .chan ∨ k = .ptr) := by
  cases v with
  | nil => simp [isNil]
  | of k n len z => cases k <;> cases n <;> simp [isNil]

/-- C104: `Empty` never disagrees with `Nil`: what is nil is empty. -/
theorem C104_nil_is_empty (v : GoVal) (h : isNil v = true) : empty v = .ok true := by
  cases v with
  | nil => rfl
  | of k n len z => cases k <;> simp_all [isNil, empty]

/-- Empty: nothing at all, a nil pointer, a container or text without elements, or a struct of zeros. -/
def IsEmpty : GoVal → Prop
  | .nil => True
  | .of k isNil len zero =>
    (k = .ptr ∧ isNil = true) ∨ ((k = .slice ∨ k = .map ∨ k = .chan) ∧ (isNil = true ∨ len = 0)) ∨ (k = .string ∧ len = 0) ∨ (k = .struct ∧ zero = true)

/-- C104 (partial): where `Empty` gives an answer it is the right one. -/
theorem C104_empty_partial (v : GoVal) (b : Bool) (h : empty v = .ok b) : b = true ↔ IsEmpty v := by
  cases v with
  | nil => simp only [empty] at h; injection h with h; subst h; simp [IsEmpty]
  | of k n len z =>
    cases k <;> cases n <;> simp only [empty, if_true, Bool.false_eq_true, if_false] at h <;> first | (injection h with h; subst h; simp [IsEmpty]) | cases h

/-- A string of length 3 and a struct that is not zero are not empty; an open channel without elements is. -/
example : empty (.of .string false 3 false) = .ok false ∧ empty (.of .struct false 0 false) = .ok false ∧ empty (.of .chan false 0 false) = .ok true := by
  decide

/-- C104 (violated): `Empty` and `NotEmpty` panic on numbers, booleans, arrays and functions. -/
theorem C104_empty_panics_violated (k : Kind) (n : Bool) (len : Nat) (z : Bool) :
    empty (.of k n len z) = .error .explicit ↔ k = .bool ∨ k = .number ∨ k = .array ∨ k = .func ∨ k = .unsafePtr := by
  cases k <;> simp [empty]
  all_goals (try split) <;> simp

/-! ### C105 -/

/-- One use of the list helpers. -/
inductive ListOp where
  | shift
  | pop
  deriving DecidableEq

/-- Taking elements one after the other; the elements taken from the front, from the back, what is left, and whether all succeeded. -/
def takeAll {α : Type} [Inhabited α] : List ListOp → List α → List α × List α × List α × Bool
  | [], l => ([], [], l, true)
  | .shift :: ops, l =>
    let (x, l', ok) := shift l
    if ok then
      let (f, b, r, ok') := takeAll ops l'
      (x :: f, b, r, ok')
    else ([], [], l', false)
  | .pop :: ops, l =>
    let (x, l', ok) := pop l
    if ok then
      let (f, b, r, ok') := takeAll ops l'
      (f, x :: b, r, ok')
    else ([], [], l', false)

/-- C105: however `Shift` and `Pop` are mixed, what was taken from the front, what is left and what was taken from the back make up the
original list in order; and they fail exactly when more elements are asked for than there are. -/
theorem C105_deque {α : Type} [Inhabited α] (ops : List ListOp) (l : List α) :
    (takeAll ops l).1 ++ (takeAll ops l).2.2.1 ++ (takeAll ops l).2.1.reverse = l ∧ ((takeAll ops l).2.2.2 = true ↔ ops.length ≤ l.length) := by
  induction ops generalizing l with
  | nil => simp [takeAll]
  | cons o ops ih =>
    cases o with
    | shift =>
      cases l with
      | nil => simp [takeAll, shift]
      | cons a l =>
        obtain ⟨h1, h2⟩ := ih l
        simp only [takeAll, shift, if_true]
        refine ⟨?_, by simpa using h2⟩
        simp only [List.cons_append, List.cons.injEq, true_and]
        exact h1
    | pop =>
      cases hl : l.getLast? with
      | none =>
        have : l = [] := List.getLast?_eq_none_iff.1 hl
        subst this
        simp [takeAll, pop]
      | some x =>
        obtain ⟨l', rfl⟩ := List.getLast?_eq_some_iff.1 hl
        obtain ⟨h1, h2⟩ := ih l'
        simp only [takeAll, pop, hl, if_true, List.dropLast_concat]
        refine ⟨?_, by simpa using h2⟩
        simp only [List.reverse_cons, ← List.append_assoc]
        rw [h1]

/-! ### concrete cases -/

example : quote (lit "a`b\\c\td\ne") = lit "`a\\`b\\\\c\\td\\ve`" := by decide
example : (containsRes (lit "hello") (lit "ell")).expectTrue.passed = true ∧ (containsRes (lit "hello") (lit "x")).expectTrue.passed = false := by decide
example : takeAll [.shift, .pop, .shift] [1, 2, 3, 4] = ([1, 2], [4], [3], true) := by decide
example : (takeAll [.pop, .pop] [1]).2.2.2 = false := by decide
example : empty (.of .slice false 0 false) = .ok true ∧ isNil (.of .slice false 0 false) = false := by decide

end Verif.Test

import Verif.Utils.Stack
import Verif.Config.Props
/-!
# Properties of stack frames (C99, C100, C101)
-/
set_option autoImplicit false
namespace Verif.Utils.Stack
open Verif.Strconv Verif.Enc Verif.Config

/-! ### C99 -/

theorem last_part (sep : Char) (f : Str) :
    sep ∉ (splitOn sep f).getLastD [] ∧ ∃ pre, f = pre ++ (splitOn sep f).getLastD [] ∧ (pre = [] ∨ pre.getLast? = some sep) := by
  induction f with
  | nil => exact ⟨by simp [splitOn], [], by simp [splitOn]⟩
  | cons c cs ih =>
    obtain ⟨h1, pre, h2, h3⟩ := ih
    have hne := splitOn_ne_nil sep cs
    simp only [splitOn]
    split
    · rename_i hc
      cases hs : splitOn sep cs with
      | nil => exact absurd hs hne
      | cons p ps =>
        rw [hs] at h1 h2
        refine ⟨by simpa using h1, c :: pre, by simpa using h2, .inr ?_⟩
        rcases h3 with rfl | h3
        · simp [hc]
        · rw [List.getLast?_cons, h3]; rfl
    · rename_i hc
      cases hs : splitOn sep cs with
      | nil => exact absurd hs hne
      | cons p ps =>
        rw [hs] at h1 h2
        cases ps with
        | nil =>
          simp only [List.getLastD_cons, List.getLastD_nil] at h1 h2 ⊢
          have hp : p = cs := by
            have := (join_splitOn sep cs).1
            rw [hs] at this; simpa [join] using this
          subst hp
          have : pre = [] := by
            have := congrArg List.length h2
            simp at this; exact this
          exact ⟨by simp [h1, Ne.symm hc], [], by simp, .inl rfl⟩
        | cons q qs =>
          refine ⟨by simpa using h1, c :: pre, by simpa using h2, .inr ?_⟩
          rcases h3 with rfl | h3
          · exfalso
            have hh := (join_splitOn sep cs).1
            rw [hs] at hh
            have : sep ∈ cs := by rw [← hh]; simp [join]
            rw [h2] at this
            exact h1 (by simpa using this)
          · rw [List.getLast?_cons, h3]; rfl

/-- C99: for every function name, `ShortFunc` is what follows the last slash (the whole name without one). -/
theorem C99_short (f : Str) : '/' ∉ shortFunc f ∧ ∃ pre, f = pre ++ shortFunc f ∧ (pre = [] ∨ pre.getLast? = some '/') :=
  last_part '/' f

theorem last_unique (sep : Char) (pre n : Str) (hn : sep ∉ n) : (splitOn sep (pre ++ sep :: n)).getLastD [] = n := by
  obtain ⟨h1, p, h2, h3⟩ := last_part sep (pre ++ sep :: n)
  generalize hx : (splitOn sep (pre ++ sep :: n)).getLastD [] = x at h1 h2
  rcases h3 with rfl | h3
  · exfalso; apply h1; rw [List.nil_append] at h2; rw [← h2]; simp
  · obtain ⟨p', rfl⟩ : ∃ p', p = p' ++ [sep] := by
      have : p ≠ [] := by rintro rfl; simp at h3
      refine ⟨p.dropLast, ?_⟩
      rw [List.getLast?_eq_some_getLast this] at h3
      have := List.dropLast_concat_getLast this
      rw [Option.some.inj h3] at this; exact this.symm
    have h2' : pre ++ sep :: n = p' ++ sep :: x := by simpa using h2
    rcases List.append_eq_append_iff.1 h2' with ⟨m, e1, e2⟩ | ⟨m, e1, e2⟩
    · cases m with
      | nil => simp at e2; exact e2.symm
      | cons y m =>
        simp only [List.cons_append, List.cons.injEq] at e2
        exact absurd (by rw [e2.2]; simp) hn
    · cases m with
      | nil => simp at e2; exact e2
      | cons y m =>
        simp only [List.cons_append, List.cons.injEq] at e2
        exact absurd (by rw [e2.2]; simp) h1

/-- C99: the function's own name is found whatever package or receiver precedes it, and whether or not the function is generic. -/
theorem C99_func_name (pkg n : Str) (hn : '.' ∉ n) (hb : ']' ∉ n) :
    funcName (pkg ++ '.' :: n) = n ∧ funcName (pkg ++ '.' :: n ++ lit "[...]") = n := by
  constructor
  · have : ¬ (lit "[...]").isSuffixOf (pkg ++ '.' :: n) = true := by
      intro h
      rw [List.isSuffixOf_iff_suffix] at h
      obtain ⟨t, ht⟩ := h
      have hl := congrArg List.getLast? ht
      have e : (t ++ lit "[...]").getLast? = some ']' := by
        rw [List.getLast?_append]; rfl
      rw [e, List.getLast?_append, List.getLast?_cons] at hl
      cases hx : n.getLast? with
      | none => rw [hx] at hl; simp at hl
      | some c =>
        rw [hx] at hl
        simp at hl
        subst hl
        exact hb (List.mem_of_getLast? hx)
    unfold funcName trimSuffix
    rw [if_neg this, last_unique '.' pkg n hn]
  · have h : (lit "[...]").isSuffixOf (pkg ++ '.' :: n ++ lit "[...]") = true := by
      rw [List.isSuffixOf_iff_suffix]; exact ⟨_, rfl⟩
    unfold funcName trimSuffix
    rw [if_pos h]
    have : (pkg ++ '.' :: n ++ lit "[...]").take ((pkg ++ '.' :: n ++ lit "[...]").length - (lit "[...]").length) = pkg ++ '.' :: n := by
      rw [List.length_append, Nat.add_sub_cancel, List.take_left']; rfl
    rw [this, last_unique '.' pkg n hn]

/-- C99: the stack printed is the run of at most `max` frames that starts `above` frames up. -/
theorem C99_stack (frames : List Str) (above : Nat) (max : Int) : stack frames above max = (frames.drop above).take max.toNat := by
  have gen : ∀ (fuel above : Nat) (acc : List Str), frames.length + 1 ≤ above + fuel ∨ frames.length < above →
      stackLoop frames above max acc fuel = acc ++ (frames.drop above).take (max.toNat - acc.length) := by
    intro fuel
    induction fuel with
    | zero =>
      intro above acc h
      have : frames.drop above = [] := List.drop_eq_nil_of_le (by omega)
      simp [stackLoop, this]
    | succ fuel ih =>
      intro above acc h
      simp only [stackLoop]
      split
      · rename_i hlt
        cases hf : frames[above]? with
        | none =>
          have : frames.drop above = [] := List.drop_eq_nil_of_le (List.getElem?_eq_none_iff.1 hf)
          simp [this]
        | some f =>
          obtain ⟨hl, he⟩ := List.getElem?_eq_some_iff.1 hf
          simp only
          rw [ih (above + 1) (acc ++ [f]) (by omega), List.drop_eq_getElem_cons hl, he]
          obtain ⟨m, hm⟩ : ∃ m, max.toNat - acc.length = m + 1 := ⟨max.toNat - acc.length - 1, by omega⟩
          have : max.toNat - (acc ++ [f]).length = m := by simp; omega
          rw [hm, this, List.take_succ_cons]
          simp
      · have : max.toNat - acc.length = 0 := by omega
        simp [this]
  have := gen (frames.length + 1) above [] (by omega)
  simpa [stack] using this

/-! ### C100 -/

/-- C100: a file that exists is left alone. -/
theorem C100_present (present : Str → Bool) (m : Mod) (file : Str) (h : present file = true) : absFile present m file = file := by
  simp [absFile, h]

/-- C100: a trimmed path of this module is put under the module's directory. -/
theorem C100_module (present : Str → Bool) (m : Mod) (rest : Str) (hm : m.name ≠ []) (h : present (m.name ++ rest) = false) :
    absFile present m (m.name ++ rest) = m.path ++ rest := by
  have hp : m.name.isPrefixOf (m.name ++ rest) = true := by rw [List.isPrefixOf_iff_prefix]; exact ⟨rest, rfl⟩
  have ht : trimPrefix m.name (m.name ++ rest) = rest := by simp [trimPrefix, hp]
  have hne : rest ≠ m.name ++ rest := by
    intro e
    have := congrArg List.length e
    simp at this
    exact hm this
  simp [absFile, h, ht, hne]

/-- C100: any other path is left alone. -/
theorem C100_other (present : Str → Bool) (m : Mod) (file : Str) (h : ¬ m.name <+: file) : absFile present m file = file := by
  have hp : ¬ m.name.isPrefixOf file = true := by rw [List.isPrefixOf_iff_prefix]; exact h
  simp [absFile, trimPrefix, hp]

/-- C100 (violated): the prefix is not cut at a path separator, so a file of another module whose name merely begins with this
module's name is mapped below a directory next to this module's. -/
theorem C100_sibling_violated (present : Str → Bool) (m : Mod) (hm : m.name ≠ []) (x rest : Str)
    (h : present (m.name ++ (x ++ '/' :: rest)) = false) : absFile present m (m.name ++ (x ++ '/' :: rest)) = m.path ++ (x ++ '/' :: rest) :=
  C100_module present m _ hm h

/-! ### C101 -/

/-- C101: the nearest directory with a non-empty go.mod decides; without one both fields stay empty. -/
theorem C101_nearest (body : Str → Str) (dirs : List Str) :
    (∀ pre d post, dirs = pre ++ d :: post → (∀ x ∈ pre, body x = []) → body d ≠ [] →
      findMod body dirs = ⟨(moduleName (body d)).getD [], d⟩) ∧
    ((∀ d ∈ dirs, body d = []) → findMod body dirs = ⟨[], []⟩) := by
  constructor
  · rintro pre d post rfl hpre hd
    induction pre with
    | nil =>
      have : (body d).length > 0 := by cases hb : body d with
        | nil => exact absurd hb hd
        | cons => simp
      simp [findMod, this]
    | cons x pre ih =>
      have hx := hpre x (by simp)
      simp only [List.cons_append, findMod, hx]
      simpa using ih (fun y hy => hpre y (by simp [hy]))
  · intro h
    induction dirs with
    | nil => rfl
    | cons x dirs ih => simp only [findMod, h x (by simp)]; simpa using ih (fun y hy => h y (by simp [hy]))

theorem takeWhile_append_stop {p : Char → Bool} (a b : Str) (ha : ∀ c ∈ a, p c = true) (hb : ∀ c, b.head? = some c → p c = false) :
    (a ++ b).takeWhile p = a := by
  induction a with
  | nil =>
    cases b with
    | nil => rfl
    | cons c b => simp [hb c rfl]
  | cons c a ih => simp [ha c (by simp), ih (fun d hd => ha d (by simp [hd]))]

/-- C101 (partial): when the file begins with its module line, the name found is the declared one. -/
theorem C101_declared_partial (name rest : Str) (hne : name ≠ []) (hn : ∀ c ∈ name, nonSpace c = true) (hr : ∀ c, rest.head? = some c → nonSpace c = false) :
    moduleName (lit "module " ++ name ++ rest) = some name := by
  have hdrop : ((lit "module " ++ name ++ rest).drop 7).dropWhile (· = ' ') = name ++ rest := by
    have : (lit "module " ++ name ++ rest).drop 7 = name ++ rest := by
      rw [List.append_assoc]; exact List.drop_left' rfl
    rw [this]
    cases name with
    | nil => exact absurd rfl hne
    | cons c cs =>
      have hc : c ≠ ' ' := by
        have := hn c (by simp)
        intro e; subst e; simp [nonSpace] at this
      simp [List.dropWhile, hc]
  have hpre : (lit "module ").isPrefixOf (lit "module " ++ name ++ rest) = true := by
    rw [List.isPrefixOf_iff_prefix, List.append_assoc]; exact ⟨_, rfl⟩
  have hhere : moduleHere (lit "module " ++ name ++ rest) = some name := by
    unfold moduleHere
    rw [if_pos hpre, hdrop, takeWhile_append_stop name rest hn hr]
    cases name with
    | nil => exact absurd rfl hne
    | cons c cs => rfl
  obtain ⟨c, cs, hs⟩ : ∃ c cs, lit "module " ++ name ++ rest = c :: cs := ⟨_, _, rfl⟩
  rw [hs] at hhere ⊢
  simp [moduleName, hhere]

theorem no_overlap (b r : Str) (hb : b ≠ []) (h : lit "module " <+: b ++ (lit "module " ++ r)) : lit "module " <:+: b := by
  by_cases hl : 7 ≤ b.length
  · have : lit "module " <+: b := by
      rw [List.prefix_iff_eq_take] at h ⊢
      have hlen : (lit "module ").length = 7 := rfl
      rw [hlen] at h ⊢
      rw [h, List.take_append_of_le_length hl]
    exact this.isInfix
  · exfalso
    obtain ⟨t, ht⟩ := h
    have h1 : (lit "module " ++ t)[b.length]? = some 'm' := by
      rw [ht, List.getElem?_append_right (Nat.le_refl _), Nat.sub_self]; rfl
    have h0 : b.length ≠ 0 := by simpa using hb
    rw [List.getElem?_append_left (by show b.length < 7; omega)] at h1
    have : b.length = 1 ∨ b.length = 2 ∨ b.length = 3 ∨ b.length = 4 ∨ b.length = 5 ∨ b.length = 6 := by omega
    rcases this with h | h | h | h | h | h <;> (rw [h] at h1; revert h1; decide)

/-- C101 (partial): when the text before the module line does not contain the word "module" with a space after it, the name found is the declared one, however many spaces are in between. -/
theorem C101_first_partial (pre name rest : Str) (k : Nat) (hp : ¬ lit "module " <:+: pre) (hne : name ≠ []) (hn : ∀ c ∈ name, nonSpace c = true)
    (hr : ∀ c, rest.head? = some c → nonSpace c = false) :
    moduleName (pre ++ (lit "module " ++ (List.replicate k ' ' ++ name ++ rest))) = some name := by
  induction pre with
  | nil =>
    have hdrop : ((lit "module " ++ (List.replicate k ' ' ++ name ++ rest)).drop 7).dropWhile (· = ' ') = name ++ rest := by
      have : (lit "module " ++ (List.replicate k ' ' ++ name ++ rest)).drop 7 = List.replicate k ' ' ++ name ++ rest := List.drop_left' rfl
      rw [this]
      induction k with
      | zero =>
        cases name with
        | nil => exact absurd rfl hne
        | cons c cs =>
          have hc : c ≠ ' ' := by
            have := hn c (by simp)
            intro e; subst e; simp [nonSpace] at this
          simp [List.dropWhile, hc]
      | succ k ih => simpa [List.replicate_succ, List.dropWhile] using ih (List.drop_left' rfl)
    have hhere : moduleHere (lit "module " ++ (List.replicate k ' ' ++ name ++ rest)) = some name := by
      unfold moduleHere
      rw [if_pos (by rw [List.isPrefixOf_iff_prefix]; exact ⟨_, rfl⟩), hdrop, takeWhile_append_stop name rest hn hr]
      cases name with
      | nil => exact absurd rfl hne
      | cons c cs => rfl
    obtain ⟨c, cs, hs⟩ : ∃ c cs, lit "module " ++ (List.replicate k ' ' ++ name ++ rest) = c :: cs := ⟨_, _, rfl⟩
    rw [List.nil_append]
    rw [hs] at hhere ⊢
    simp [moduleName, hhere]
  | cons c pre ih =>
    have hnone : moduleHere (c :: pre ++ (lit "module " ++ (List.replicate k ' ' ++ name ++ rest))) = none := by
      unfold moduleHere
      rw [if_neg]
      rw [List.isPrefixOf_iff_prefix]
      exact fun h => hp (no_overlap _ _ (by simp) h)
    rw [List.cons_append] at hnone ⊢
    rw [moduleName, hnone]
    exact ih fun h => hp (h.trans (List.infix_cons (List.infix_refl _)))

/-- With a comment before the module line. -/
example : moduleName (lit "// forego\nmodule  a/b\n") = some (lit "a/b") :=
  C101_first_partial (lit "// forego\n") (lit "a/b") (lit "\n") 1
    (fun h => absurd (h.subset (show 'm' ∈ lit "module " by decide)) (by decide)) (by decide) (by decide) (by simp [lit, nonSpace])

/-- C101 (violated): a comment before the module line that contains the word "module" is taken for it. -/
theorem C101_comment_violated (name : Str) : moduleName (lit "// The module of\nmodule " ++ name) = some (lit "of") := by
  have h : lit "// The module of\nmodule " ++ name = '/' :: '/' :: ' ' :: 'T' :: 'h' :: 'e' :: ' ' :: (lit "module of" ++ '\n' :: (lit "module " ++ name)) := by
    simp [lit]
  rw [h]
  have hm := C101_declared_partial (lit "of") ('\n' :: (lit "module " ++ name)) (by decide) (by decide) (by simp [nonSpace])
  have e : lit "module " ++ lit "of" ++ '\n' :: (lit "module " ++ name) = lit "module of" ++ '\n' :: (lit "module " ++ name) := by simp [lit]
  rw [e] at hm
  have no : ∀ (c : Char) (cs : Str), c ≠ 'm' → moduleName (c :: cs) = moduleName cs := by
    intro c cs hc
    have : moduleHere (c :: cs) = none := by
      unfold moduleHere
      rw [if_neg]
      simp [lit, List.isPrefixOf, Ne.symm hc]
    simp [moduleName, this]
  rw [no _ _ (by decide), no _ _ (by decide), no _ _ (by decide), no _ _ (by decide), no _ _ (by decide), no _ _ (by decide), no _ _ (by decide)]
  exact hm

/-! ### concrete cases -/

example : funcName (lit "github.com/x/test.Shift[...]") = lit "Shift" ∧ shortFunc (lit "github.com/x/test.Shift") = lit "test.Shift" := by decide
example : absFile (fun _ => false) ⟨lit "aize.io/m", lit "/src"⟩ (lit "aize.io/m/a.go") = lit "/src/a.go" ∧
    absFile (fun _ => false) ⟨lit "aize.io/m", lit "/src"⟩ (lit "aize.io/m2/a.go") = lit "/src2/a.go" := by decide
example : findMod (fun d => if d = lit "/a" then lit "module x.io/y\n\ngo 1.20" else []) [lit "/a/b", lit "/a", lit "/"] = ⟨lit "x.io/y", lit "/a"⟩ := by
  decide
example : stack [lit "a:1", lit "b:2", lit "c:3"] 1 10 = [lit "b:2", lit "c:3"] := by decide

end Verif.Utils.Stack

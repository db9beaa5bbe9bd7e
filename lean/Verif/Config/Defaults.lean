import Verif.Config.Props
/-!
# Defaults in tags (C166) (config/config.go)

The options of a tag are separated by commas, as the elements of lists and maps are.
-/
set_option autoImplicit false
namespace Verif.Config.Defaults
open Verif.Strconv Verif.Enc Verif.Config

/-- The tag `key,default=v`, as written by a programmer. config/config.go L33-46. -/
def withDefault (key v : Str) : Str := key ++ ',' :: (lit "default=" ++ v)

theorem cut_default (v : Str) : cut '=' (lit "default=" ++ v) = (lit "default", v) :=
  cut_join '=' (lit "default") v (by decide)

/-- C166, what holds: if the default has no comma then a missing value is loaded as if the default had been given; a value that is given is loaded as if
there were no default. -/
theorem C166_default_partial (custom : Nat → CVal → Str → Except Stop CVal) (f : Str → Str) (key v : Str) (ty : CTy) (exported : Bool) (old : CVal)
    (hk : ',' ∉ key) (hne : key ≠ []) (hv : ',' ∉ v) :
    (f key = [] → v ≠ [] → loadField custom f ⟨withDefault key v, ty, exported⟩ old = loadField custom (fun _ => v) ⟨key, ty, exported⟩ old) ∧
    (f key ≠ [] → loadField custom f ⟨withDefault key v, ty, exported⟩ old = loadField custom f ⟨key, ty, exported⟩ old) := by
  have hopt : ',' ∉ lit "default=" ++ v := by
    intro h
    rcases List.mem_append.1 h with h | h
    · exact absurd h (by decide)
    · exact hv h
  have hs1 : splitOn ',' (withDefault key v) = [key, lit "default=" ++ v] := by
    rw [withDefault, splitOn_append _ _ _ hk, splitOn_single _ _ hopt]
  have hs2 : splitOn ',' key = [key] := splitOn_single _ _ hk
  have ht : withDefault key v ≠ [] := by cases key <;> simp [withDefault]
  constructor
  · intro hf hv
    simp [loadField, ht, hne, hs1, hs2, hf, hv, parseOpts, cut_default]
  · intro hf
    simp [loadField, ht, hne, hs1, hs2, hf, parseOpts, cut_default]

theorem parseOpts_none (os : List Str) (d : Option Str) (o : Str) (ho : o ∈ os) (hd : (cut '=' o).1 ≠ lit "default") : parseOpts os d = none := by
  induction os generalizing d with
  | nil => cases ho
  | cons a os ih =>
    simp only [parseOpts]
    split
    · rename_i ha
      rcases List.mem_cons.1 ho with h | h
      · subst h; exact absurd ha hd
      · exact ih _ h
    · rfl

/-- C166 (negation): a default with a comma, followed by anything but another default, makes loading fail, also if a value is given. -/
theorem C166_comma_violated (custom : Nat → CVal → Str → Except Stop CVal) (f : Str → Str) (key v el rest : Str) (ty : CTy) (exported : Bool) (old : CVal)
    (hk : ',' ∉ key) (hv : ',' ∉ v) (he : ',' ∉ el) (hd : (cut '=' el).1 ≠ lit "default") (hr : rest = [] ∨ ∃ r, rest = ',' :: r) :
    loadField custom f ⟨withDefault key (v ++ ',' :: (el ++ rest)), ty, exported⟩ old = .error .err := by
  have hopt : ',' ∉ lit "default=" ++ v := by
    intro h
    rcases List.mem_append.1 h with h | h
    · exact absurd h (by decide)
    · exact hv h
  have hel : el ∈ splitOn ',' (el ++ rest) := by
    rcases hr with rfl | ⟨r, rfl⟩
    · rw [List.append_nil, splitOn_single _ _ he]; simp
    · rw [splitOn_append _ _ _ he]; simp
  have hs : splitOn ',' (withDefault key (v ++ ',' :: (el ++ rest))) = key :: (lit "default=" ++ v) :: splitOn ',' (el ++ rest) := by
    rw [withDefault, splitOn_append _ _ _ hk, ← List.append_assoc, splitOn_append _ _ _ hopt]
  have ht : withDefault key (v ++ ',' :: (el ++ rest)) ≠ [] := by cases key <;> simp [withDefault]
  have hp := parseOpts_none ((lit "default=" ++ v) :: splitOn ',' (el ++ rest)) none el (List.mem_cons_of_mem _ hel) hd
  simp only [loadField, ht, if_false, hs, List.tail_cons, hp]

/-- The ports 80 and 81 can be given as a value, not as the default. -/
example (custom : Nat → CVal → Str → Except Stop CVal) :
    loadField custom (fun _ => lit "80,81") ⟨lit "ports", .slice (.int false), true⟩ (.slice none) = .ok (.slice (some [.int 80, .int 81])) ∧
    loadField custom (fun _ => lit "80,81") ⟨lit "ports,default=80,81", .slice (.int false), true⟩ (.slice none) = .error .err :=
  ⟨by rfl, C166_comma_violated custom _ (lit "ports") (lit "80") (lit "81") [] _ _ _ (by decide) (by decide) (by decide) (by decide) (.inl rfl)⟩

theorem parseOpts_no_comma (os : List Str) (hos : ∀ o ∈ os, ',' ∉ o) (d : Option Str) (hd : ∀ v, d = some v → ',' ∉ v) (r : Option Str) (h : parseOpts os d = some r) :
    ∀ v, r = some v → ',' ∉ v := by
  induction os generalizing d with
  | nil => simp only [parseOpts, Option.some.injEq] at h; subst h; exact hd
  | cons o os ih =>
    simp only [parseOpts] at h
    split at h
    · refine ih (fun o ho => hos o (List.mem_cons_of_mem _ ho)) _ (fun v hv => ?_) h
      injection hv with hv; subst hv
      intro hc
      refine hos o List.mem_cons_self ?_
      rcases (cut_cases '=' o).2 with e | ⟨_, e⟩
      · rw [e]; simp [hc]
      · rw [e] at hc; cases hc
    · cases h

/-- C166 (negation): whatever the tag, a list that is not configured has at most one element more than it was given, and a map at most one entry: there is no way to write another
default. -/
theorem C166_list_violated (custom : Nat → CVal → Str → Except Stop CVal) (tag : Str) (e : CTy) (exported : Bool) (old new : CVal) :
    (loadField custom (fun _ => []) ⟨tag, .slice e, exported⟩ old = .ok new → new = old ∨ new.elems.length = old.elems.length + 1) ∧
    (loadField custom (fun _ => []) ⟨tag, .map true e, exported⟩ old = .ok new → new = old ∨ ∃ x, new = .map (some [x])) := by
  have key : ∀ ty, loadField custom (fun _ => []) ⟨tag, ty, exported⟩ old = .ok new → new = old ∨ ∃ v, ',' ∉ v ∧ unmarshalText custom ty old v = .ok new := by
    intro ty h
    simp only [loadField] at h
    split at h
    · injection h with h; exact .inl h.symm
    · split at h
      · cases h
      · rename_i d hp
        simp only [if_true] at h
        split at h
        · cases h
        · rename_i v
          split at h
          · refine .inr ⟨v, ?_, h⟩
            have hall := (join_splitOn ',' tag).2
            exact parseOpts_no_comma _ (fun o ho => hall o (List.mem_of_mem_tail ho)) none (by simp) _ hp v rfl
          · cases h
  constructor
  · intro h
    rcases key _ h with h | ⟨v, hv, h⟩
    · exact .inl h
    · simp only [unmarshalText] at h
      by_cases hn : v = []
      · simp only [hn, ne_eq, not_true_eq_false, if_false] at h
        injection h with h; exact .inl h.symm
      · simp only [hn, ne_eq, not_false_eq_true, if_true, splitOn_single _ _ hv, parseParts] at h
        cases hu : unmarshalText custom e (zero e) v with
        | error x => rw [hu] at h; cases h
        | ok y =>
          rw [hu] at h
          simp only at h
          injection h with h
          subst h
          exact .inr (by simp [CVal.elems])
  · intro h
    rcases key _ h with h | ⟨v, hv, h⟩
    · exact .inl h
    · simp only [unmarshalText] at h
      by_cases hn : v = []
      · simp only [hn, ne_eq, not_true_eq_false, if_false] at h
        injection h with h; exact .inl h.symm
      · simp only [hn, ne_eq, not_false_eq_true, if_true, splitOn_single _ _ hv, parseParts] at h
        cases hu : unmarshalText custom e (zero e) (cut '=' v).2 with
        | error x => rw [hu] at h; cases h
        | ok y =>
          rw [hu] at h
          simp only at h
          injection h with h
          subst h
          exact .inr ⟨((cut '=' v).1, y), rfl⟩

/-- C166 (negation): with a default that is not empty, a string can not be configured to be empty. -/
theorem C166_empty_violated (custom : Nat → CVal → Str → Except Stop CVal) (f : Str → Str) (key v : Str) (old new : CVal) (hk : ',' ∉ key) (hv : ',' ∉ v)
    (hne : v ≠ []) (h : loadField custom f ⟨withDefault key v, .str, true⟩ old = .ok new) : new ≠ .str [] := by
  have hopt : ',' ∉ lit "default=" ++ v := by
    intro h
    rcases List.mem_append.1 h with h | h
    · exact absurd h (by decide)
    · exact hv h
  have hs1 : splitOn ',' (withDefault key v) = [key, lit "default=" ++ v] := by
    rw [withDefault, splitOn_append _ _ _ hk, splitOn_single _ _ hopt]
  have ht : withDefault key v ≠ [] := by cases key <;> simp [withDefault]
  by_cases hf : f key = []
  · simp [loadField, ht, hs1, hf, parseOpts, cut_default, unmarshalText] at h
    subst h; intro hx; injection hx with hx; exact hne hx
  · simp [loadField, ht, hs1, hf, parseOpts, cut_default, unmarshalText] at h
    subst h; intro hx; injection hx with hx; exact hf hx

example (custom : Nat → CVal → Str → Except Stop CVal) :
    loadField custom (fun _ => []) ⟨lit "listen,default=:8080", .str, true⟩ (.str []) = .ok (.str (lit ":8080")) := by rfl

end Verif.Config.Defaults

import Verif.Openapi.Props
/-!
# The formats of schemas (property C111)
-/
set_option autoImplicit false
namespace Verif.Openapi
open Verif.Strconv Verif.Enc

mutual
/-- At every level below, the format says something the type does not say. -/
def Schema.Tidy : Schema → Prop
  | .leaf ty fmt _ => fmt = [] ∨ fmt ≠ ty
  | .ref _ _ => True
  | .array fmt _ s => (fmt = [] ∨ fmt ≠ lit "array") ∧ s.Tidy
  | .map fmt _ s => (fmt = [] ∨ fmt ≠ lit "object") ∧ s.Tidy
  | .object fmt _ ps => (fmt = [] ∨ fmt ≠ lit "object") ∧ Schema.PropsTidy ps
def Schema.PropsTidy : List (Str × Schema) → Prop
  | [] => True
  | (_, s) :: ps => s.Tidy ∧ Schema.PropsTidy ps
end

/-- The parts below are tidy. -/
def Schema.Inner : Schema → Prop
  | .leaf _ _ _ | .ref _ _ => True
  | .array _ _ s | .map _ _ s => s.Tidy
  | .object _ _ ps => Schema.PropsTidy ps

theorem fixFmt_tidy (ty fmt : Str) : fixFmt ty fmt = [] ∨ fixFmt ty fmt ≠ ty := by
  unfold fixFmt
  split
  · exact .inl rfl
  · rename_i h; exact .inr h

theorem finish_tidy (doc : Str) (s : Schema) (h : s.Inner) : (s.finish doc).Tidy := by
  cases s with
  | leaf ty fmt d => exact fixFmt_tidy ty fmt
  | ref key d => exact trivial
  | array fmt d s => exact ⟨fixFmt_tidy _ _, h⟩
  | map fmt d s => exact ⟨fixFmt_tidy _ _, h⟩
  | object fmt d ps => exact ⟨fixFmt_tidy _ _, h⟩

theorem insert_tidy (k : Str) (s : Schema) (hs : s.Tidy) : ∀ ps, Schema.PropsTidy ps → Schema.PropsTidy (insertKey k s ps)
  | [], _ => ⟨hs, trivial⟩
  | (k', s') :: ps, h => by
    simp only [insertKey]
    split
    · exact ⟨hs, h.2⟩
    · split
      · exact ⟨hs, h⟩
      · exact ⟨h.1, insert_tidy k s hs ps h.2⟩

theorem bind_isOk' {α β : Type} {r : R α} {f : α → Table → R β} {b : β} {tab : Table} (h : r.bind f = .ok b tab) : ∃ a t, r = .ok a t ∧ f a t = .ok b tab := by
  cases r with
  | ok a t => exact ⟨a, t, rfl, h⟩
  | err t => cases h
  | errNil t => cases h
  | panic t => cases h
  | loop => cases h

theorem fin_ok {doc : Str} {r : R Schema} {s : Schema} {tab : Table} (h : fin doc r = .ok s tab) : ∃ s', r = .ok s' tab ∧ s = s'.finish doc := by
  cases r with
  | ok a t => injection h with h1 h2; subst h1; subst h2; exact ⟨a, rfl, rfl⟩
  | err t => cases h
  | errNil t => cases h
  | panic t => cases h
  | loop => cases h

theorem fields_tidy (sub : Str → OTy → Table → R Schema) (hsub : ∀ doc t tab s tab', sub doc t tab = .ok s tab' → s.Tidy) (def_ : Option (Str × Str)) :
    ∀ (l : List Field) (ps : List (Str × Schema)) (tab : Table) (ps' : List (Str × Schema)) (tab' : Table), Schema.PropsTidy ps →
      fieldsWith sub def_ l ps tab = .ok ps' tab' → Schema.PropsTidy ps'
  | [], ps, tab, ps', tab', hp, h => by injection h with h1 h2; subst h1; exact hp
  | (f, doc, t) :: l, ps, tab, ps', tab', hp, h => by
    obtain ⟨s, t', h1, h2⟩ := bind_isOk' h
    exact fields_tidy sub hsub def_ l _ _ ps' tab' (insert_tidy _ s (hsub _ _ _ _ _ h1) ps hp) h2

theorem body_inner (E : Env) : ∀ (n : Nat) (orig t : OTy) (tab : Table) (s : Schema) (tab' : Table), body E n orig t tab = .ok s tab' → s.Inner
  | 0, _, _, _, _, _, h => by cases h
  | n + 1, orig, t, tab, s, tab', h => by
    have sub : ∀ doc t tab s tab', fin doc (body E n t t tab) = .ok s tab' → s.Tidy := by
      intro doc t tab s tab' h
      obtain ⟨s', h1, h2⟩ := fin_ok h
      subst h2
      exact finish_tidy doc s' (body_inner E n t t tab s' tab' h1)
    cases t with
    | prim ty fmt => injection h with h1 h2; subst h1; exact trivial
    | bad => cases h
    | ptr t => exact body_inner E n orig t tab s tab' h
    | arr t =>
      obtain ⟨s', t', h1, h2⟩ := bind_isOk' h
      injection h2 with h2 h3; subst h2
      exact sub _ _ _ _ _ h1
    | map k t =>
      obtain ⟨s', t', h1, h2⟩ := bind_isOk' h
      obtain ⟨s'', t'', h3, h4⟩ := bind_isOk' h2
      injection h4 with h4 h5; subst h4
      exact sub _ _ _ _ _ h3
    | anon fs =>
      obtain ⟨ps, t', h1, h2⟩ := bind_isOk' h
      injection h2 with h2 h3; subst h2
      exact fields_tidy _ sub none fs [] tab ps t' trivial h1
    | ref i =>
      simp only [body] at h
      split at h
      · exact body_inner E n orig _ tab s tab' h
      · split at h
        · injection h with h1 h2; subst h1; exact trivial
        · obtain ⟨ps, t', h1, h2⟩ := bind_isOk' h
          injection h2 with h2 h3; subst h2
          exact trivial

/-- A struct `a.User`. -/
def oneEnv : Env where
  defs := fun _ => .struct (lit "a") (lit "User") []
  str
    | .ptr _ => lit "*a.User"
    | _ => lit "a.User"

/-- C111: no schema, and no part of one, has a format that only repeats its type. -/
theorem C111_tidy (E : Env) (n : Nat) (doc : Str) (t : OTy) (tab tab' : Table) (s : Schema) (h : schema E n doc t tab = .ok s tab') : s.Tidy := by
  obtain ⟨s', h1, h2⟩ := fin_ok h
  subst h2
  exact finish_tidy doc s' (body_inner E n t t tab s' tab' h1)

example : ∃ s tab', schema oneEnv 9 (lit "who") (.arr (.ptr (.ref 0))) [] = .ok s tab' ∧ s.Tidy ∧ s.format = lit "[]*a.User" :=
  ⟨_, _, rfl, C111_tidy oneEnv 9 (lit "who") (.arr (.ptr (.ref 0))) [] _ _ rfl, by decide⟩

/-- C111: a slice's format is that of its elements behind brackets; that of an element is its own format or else its type, or that of the definition it
refers to. -/
theorem C111_slice (E : Env) (n : Nat) (doc : Str) (t : OTy) (tab tab' : Table) (s : Schema) (h : schema E (n + 1) doc (.arr t) tab = .ok s tab') :
    ∃ e, schema E n [] t tab = .ok e tab' ∧ s = .array (lit "[]" ++ formatOf tab' e) doc e := by
  obtain ⟨s', h1, h2⟩ := fin_ok h
  obtain ⟨e, t', h3, h4⟩ := bind_isOk' h1
  injection h4 with h4 h5
  subst h5; subst h4; subst h2
  refine ⟨e, h3, ?_⟩
  have : ∀ x : Str, lit "[]" ++ x ≠ lit "array" := by
    intro x hx
    have := congrArg List.head? hx
    revert this
    show some '[' ≠ some 'a'
    decide
  simp only [Schema.finish, fixFmt, this, if_false]

example : ∃ s tab', schema oneEnv 9 [] (.arr (.arr (.ref 0))) [] = .ok s tab' ∧ s.format = lit "[][]a.User" := ⟨_, _, rfl, by decide⟩

/-- C111: and a map's is spelled like the Go type. -/
theorem C111_map (E : Env) (n : Nat) (doc : Str) (k t : OTy) (tab tab' : Table) (s : Schema) (h : schema E (n + 1) doc (.map k t) tab = .ok s tab') :
    ∃ ek tab1 e, schema E n [] k tab = .ok ek tab1 ∧ schema E n [] t tab1 = .ok e tab' ∧
      s = .map (lit "map[" ++ formatOf tab' ek ++ lit "]" ++ formatOf tab' e) doc e := by
  obtain ⟨s', h1, h2⟩ := fin_ok h
  obtain ⟨ek, t', h3, h4⟩ := bind_isOk' h1
  obtain ⟨e, t'', h5, h6⟩ := bind_isOk' h4
  injection h6 with h6 h7
  subst h7; subst h6; subst h2
  refine ⟨ek, t', e, h3, h5, ?_⟩
  have : ∀ x y : Str, lit "map[" ++ x ++ lit "]" ++ y ≠ lit "object" := by
    intro x y hx
    have := congrArg List.head? hx
    revert this
    show some 'm' ≠ some 'o'
    decide
  simp only [Schema.finish, fixFmt, this, if_false]

example : ∃ s tab', schema oneEnv 9 [] (.map (.ref 0) (.arr (.ref 0))) [] = .ok s tab' ∧ s.format = lit "map[a.User][]a.User" := ⟨_, _, rfl, by decide⟩

/-- C111: a reference whose definition is missing has no format; one with a definition has that of the definition, or else its type. -/
theorem C111_reference (tab : Table) (key doc : Str) :
    (lookupKey key tab = none → formatOf tab (.ref key doc) = []) ∧
    (∀ d, lookupKey key tab = some d → formatOf tab (.ref key doc) = if d.format = [] then d.type else d.format) := by
  have hr : formatOf tab (.ref key doc) = match lookupKey key tab with
      | none => []
      | some d => if d.format ≠ [] then d.format else d.type := rfl
  refine ⟨fun h => by rw [hr, h], fun d h => ?_⟩
  rw [hr, h]
  simp only
  by_cases hd : d.format = [] <;> simp [hd]

/-- C111 (violated): the format of a definition is that of the type it was first reached from. If that was a pointer then every later slice of
users is documented as one of pointers, and the other way round. -/
theorem C111_order_violated (n : Nat) : ∃ tab tab' s s',
    schema oneEnv (n + 3) [] (.ptr (.ref 0)) [] = .ok (.ref (lit "a_User") []) tab ∧ schema oneEnv (n + 3) [] (.arr (.ref 0)) tab = .ok s tab ∧ s.format = lit "[]*a.User" ∧
    schema oneEnv (n + 3) [] (.ref 0) [] = .ok (.ref (lit "a_User") []) tab' ∧ schema oneEnv (n + 3) [] (.arr (.ref 0)) tab' = .ok s' tab' ∧ s'.format = lit "[]a.User" :=
  ⟨_, _, _, _, rfl, rfl, by decide, rfl, rfl, by decide⟩

end Verif.Openapi

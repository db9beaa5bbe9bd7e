import Verif.Openapi.Spec
/-!
# Lemmas on schemas
-/
set_option autoImplicit false
namespace Verif.Openapi
open Verif.Strconv Verif.Enc

/-! ### tables -/

theorem Keeps.refl (tab : Table) : Keeps tab tab := fun _ _ h => h
theorem Keeps.trans {a b c : Table} (h : Keeps a b) (h' : Keeps b c) : Keeps a c := fun k s hk => h' k s (h k s hk)
theorem Keeps.has {a b : Table} (h : Keeps a b) {k : Str} (hk : Has a k) : Has b k := by obtain ⟨s, hs⟩ := hk; exact ⟨s, h k s hs⟩

theorem mem_propRefs (r : Str) : ∀ (ps : List (Str × Schema)), r ∈ Schema.propRefs ps ↔ ∃ e ∈ ps, r ∈ e.2.refs
  | [] => by simp [Schema.propRefs]
  | (k, s) :: ps => by simp [Schema.propRefs, mem_propRefs r ps]

theorem finish_refs (doc : Str) (s : Schema) : (s.finish doc).refs = s.refs := by cases s <;> simp [Schema.finish, Schema.refs]

theorem insert_refs {k r : Str} {s : Schema} {ps : List (Str × Schema)} (h : r ∈ Schema.propRefs (insertKey k s ps)) : r ∈ s.refs ∨ r ∈ Schema.propRefs ps := by
  obtain ⟨e, he, hr⟩ := (mem_propRefs r _).1 h
  rcases mem_insertKey he with rfl | he
  · exact Or.inl hr
  · exact Or.inr ((mem_propRefs r _).2 ⟨e, he, hr⟩)

/-- A type that is all right so far: no type without schema, and every named struct in the table. -/
inductive Fine (E : Env) (tab : Table) : OTy → Prop where
  | prim (ty : Str) (fmt : Option Str) : Fine E tab (.prim ty fmt)
  | ptr {t : OTy} : Fine E tab t → Fine E tab (.ptr t)
  | arr {t : OTy} : Fine E tab t → Fine E tab (.arr t)
  | map {k t : OTy} : Fine E tab k → Fine E tab t → Fine E tab (.map k t)
  | anon {fs : List Field} : (∀ f ∈ fs, Fine E tab f.2.2) → Fine E tab (.anon fs)
  | lit {i : Nat} {t : OTy} : E.defs i = .lit t → Fine E tab t → Fine E tab (.ref i)
  | struct {i : Nat} {pkg name : Str} {fs : List Field} : E.defs i = .struct pkg name fs → Has tab (structKey pkg name) → Fine E tab (.ref i)

theorem Fine.mono {E : Env} {a b : Table} (h : ∀ k, Has a k → Has b k) {t : OTy} (hf : Fine E a t) : Fine E b t := by
  induction hf with
  | prim ty fmt => exact .prim ty fmt
  | ptr _ ih => exact .ptr ih
  | arr _ ih => exact .arr ih
  | map _ _ ih ih' => exact .map ih ih'
  | anon _ ih => exact .anon ih
  | lit hd _ ih => exact .lit hd ih
  | struct hd hk => exact .struct hd (h _ hk)

/-- What is new in a table is the description of a struct, whose fields are all right. -/
def NewOk (E : Env) (tab tab' : Table) : Prop := ∀ k s, lookupKey k tab = none → lookupKey k tab' = some s →
  ∃ i pkg name fs, E.defs i = .struct pkg name fs ∧ structKey pkg name = k ∧ Describes s fs ∧ ∀ f ∈ fs, Fine E tab' f.2.2

/-- The effect of a call: references resolve, entries stay, and after success what is new is all right. -/
def Post {α : Type} (E : Env) (tab : Table) (r : R α) (Q : α → Table → Prop) : Prop :=
  match r with
  | .ok a tab' => Closed tab' ∧ Keeps tab tab' ∧ NewOk E tab tab' ∧ Q a tab'
  | .err tab' | .errNil tab' | .panic tab' => Closed tab' ∧ Keeps tab tab'
  | .loop => True

theorem NewOk.refl (E : Env) (tab : Table) : NewOk E tab tab := fun k s h h' => by rw [h] at h'; cases h'

theorem NewOk.trans {E : Env} {a b c : Table} (h : NewOk E a b) (h' : NewOk E b c) (hk : Keeps b c) : NewOk E a c := by
  intro k s hn hs
  cases hb : lookupKey k b with
  | none => exact h' k s hb hs
  | some s' =>
    have := hk k s' hb
    rw [hs] at this; injection this with this; subst this
    obtain ⟨i, pkg, name, fs, h1, h2, h3, h4⟩ := h k s hn hb
    exact ⟨i, pkg, name, fs, h1, h2, h3, fun f hf => (h4 f hf).mono fun _ => hk.has⟩

theorem Post.bind {α β : Type} {E : Env} {tab : Table} {r : R α} {Q : α → Table → Prop} {f : α → Table → R β} {Q' : β → Table → Prop} (h : Post E tab r Q)
    (hf : ∀ a tab', Closed tab' → Keeps tab tab' → Q a tab' → Post E tab' (f a tab') Q') : Post E tab (r.bind f) Q' := by
  cases r with
  | ok a tab' =>
    obtain ⟨h1, h2, h3, h4⟩ := h
    have := hf a tab' h1 h2 h4
    simp only [R.bind]
    cases hr : f a tab' with
    | ok b t => rw [hr] at this; exact ⟨this.1, h2.trans this.2.1, h3.trans this.2.2.1 this.2.1, this.2.2.2⟩
    | err t => rw [hr] at this; exact ⟨this.1, h2.trans this.2⟩
    | errNil t => rw [hr] at this; exact ⟨this.1, h2.trans this.2⟩
    | panic t => rw [hr] at this; exact ⟨this.1, h2.trans this.2⟩
    | loop => trivial
  | err tab' => exact h
  | errNil tab' => exact h
  | panic tab' => exact h
  | loop => trivial

/-- What a call promises about its schema. -/
def Good (E : Env) (t : OTy) (s : Schema) (tab : Table) : Prop := (∀ r ∈ s.refs, Has tab r) ∧ Fine E tab t

theorem Post.fin {E : Env} {tab : Table} {r : R Schema} {t : OTy} (doc : Str) (h : Post E tab r (Good E t)) : Post E tab (fin doc r) (Good E t) := by
  cases r with
  | ok a tab' =>
    refine ⟨h.1, h.2.1, h.2.2.1, ?_, h.2.2.2.2⟩
    rw [finish_refs]; exact h.2.2.2.1
  | err tab' => exact h
  | errNil tab' => exact h
  | panic tab' => exact h
  | loop => trivial

/-- The properties as described so far. -/
def Props' (l : List Field) (props props' : List (Str × Schema)) : Prop :=
  ∀ p, (lookupKey p props').isSome = true ↔ (lookupKey p props).isSome = true ∨ ∃ f ∈ l, propName f.1 = p

theorem props_cons {f : FieldInfo} {doc : Str} {t : OTy} {l : List Field} {s : Schema} {props props' : List (Str × Schema)}
    (h : Props' l (insertKey (propName f) s props) props') : Props' ((f, doc, t) :: l) props props' := by
  intro p
  rw [h p, lookup_insertKey]
  constructor
  · rintro (h | ⟨g, hg, hp⟩)
    · split at h
      · rename_i he; exact Or.inr ⟨(f, doc, t), List.mem_cons_self .., he.symm⟩
      · exact Or.inl h
    · exact Or.inr ⟨g, List.mem_cons_of_mem _ hg, hp⟩
  · rintro (h | ⟨g, hg, hp⟩)
    · left
      split
      · rfl
      · exact h
    · rcases List.mem_cons.1 hg with rfl | hg
      · left; rw [if_pos hp.symm]; rfl
      · exact Or.inr ⟨g, hg, hp⟩

/-- The loop of a struct without name. -/
theorem fields_anon (E : Env) (sub : Str → OTy → Table → R Schema) (hsub : ∀ doc t tab, Closed tab → Post E tab (sub doc t tab) (Good E t)) :
    ∀ (l : List Field) (props : List (Str × Schema)) (tab : Table), Closed tab → (∀ r ∈ Schema.propRefs props, Has tab r) →
      Post E tab (fieldsWith sub none l props tab) (fun props' tab' => (∀ r ∈ Schema.propRefs props', Has tab' r) ∧ ∀ f ∈ l, Fine E tab' f.2.2)
  | [], props, tab, hc, hr => ⟨hc, Keeps.refl _, NewOk.refl _ _, hr, fun f hf => by cases hf⟩
  | (f, doc, t) :: l, props, tab, hc, hr => by
    unfold fieldsWith
    refine (hsub doc t tab hc).bind fun s tab' hc' hk hg => ?_
    have ih := fields_anon E sub hsub l (insertKey (propName f) s props) tab' hc' fun r h => by
      rcases insert_refs h with h | h
      · exact hg.1 r h
      · exact hk.has (hr r h)
    simp only
    cases hres : fieldsWith sub none l (insertKey (propName f) s props) tab' with
    | ok ps tab'' =>
      rw [hres] at ih
      refine ⟨ih.1, ih.2.1, ih.2.2.1, ih.2.2.2.1, fun g hg' => ?_⟩
      rcases List.mem_cons.1 hg' with rfl | hg'
      · exact hg.2.mono fun _ => ih.2.1.has
      · exact ih.2.2.2.2 g hg'
    | err _ => rw [hres] at ih; exact ih
    | errNil _ => rw [hres] at ih; exact ih
    | panic _ => rw [hres] at ih; exact ih
    | loop => trivial

/-- What is kept, but for the struct being described. -/
def KeepsBut (key : Str) (a b : Table) : Prop := (∀ k s, k ≠ key → lookupKey k a = some s → lookupKey k b = some s) ∧ ∀ k, Has a k → Has b k

theorem Keeps.but {a b : Table} (h : Keeps a b) (key : Str) : KeepsBut key a b := ⟨fun k s _ => h k s, fun _ => h.has⟩
theorem KeepsBut.trans {key : Str} {a b c : Table} (h : KeepsBut key a b) (h' : KeepsBut key b c) : KeepsBut key a c :=
  ⟨fun k s hk hs => h'.1 k s hk (h.1 k s hk hs), fun k hk => h'.2 k (h.2 k hk)⟩

theorem keepsBut_insert (key : Str) (s : Schema) (tab : Table) : KeepsBut key tab (insertKey key s tab) := by
  refine ⟨fun k s' hk hs => ?_, fun k ⟨s', hs⟩ => ?_⟩
  · rw [lookup_insertKey, if_neg hk]; exact hs
  · unfold Has; rw [lookup_insertKey]
    split
    · exact ⟨s, rfl⟩
    · exact ⟨s', hs⟩

/-- The effect of describing a named struct, on the table where it is registered. -/
def PostDef (E : Env) (key fmt : Str) (l : List Field) (props : List (Str × Schema)) (tab : Table) (r : R (List (Str × Schema))) : Prop :=
  match r with
  | .ok props' tab' => Closed tab' ∧ KeepsBut key tab tab' ∧ NewOk E tab tab' ∧ lookupKey key tab' = some (.object fmt [] props') ∧ Props' l props props' ∧
      ∀ f ∈ l, Fine E tab' f.2.2
  | .err tab' | .errNil tab' | .panic tab' => Closed tab' ∧ KeepsBut key tab tab'
  | .loop => True

theorem fields_def (E : Env) (key fmt : Str) (sub : Str → OTy → Table → R Schema) (hsub : ∀ doc t tab, Closed tab → Post E tab (sub doc t tab) (Good E t)) :
    ∀ (l : List Field) (props : List (Str × Schema)) (tab : Table), Closed tab → lookupKey key tab = some (.object fmt [] props) →
      PostDef E key fmt l props tab (fieldsWith sub (some (key, fmt)) l props tab)
  | [], props, tab, hc, hk => ⟨hc, (Keeps.refl _).but _, NewOk.refl _ _, hk, fun p => by simp, fun f hf => by cases hf⟩
  | (f, doc, t) :: l, props, tab, hc, hkey => by
    unfold fieldsWith
    have hs := hsub doc t tab hc
    cases hr : sub doc t tab with
    | err _ => rw [hr] at hs; exact ⟨hs.1, hs.2.but _⟩
    | errNil _ => rw [hr] at hs; exact ⟨hs.1, hs.2.but _⟩
    | panic _ => rw [hr] at hs; exact ⟨hs.1, hs.2.but _⟩
    | loop => trivial
    | ok s tab' =>
      rw [hr] at hs
      obtain ⟨hc', hk, hn, hg⟩ := hs
      simp only [R.bind]
      -- the table after the update
      have hkey' := hk key _ hkey
      have hbut := keepsBut_insert key (.object fmt [] (insertKey (propName f) s props)) tab'
      have hc'' : Closed (insertKey key (.object fmt [] (insertKey (propName f) s props)) tab') := by
        intro k s' hs' r hr'
        rw [lookup_insertKey] at hs'
        split at hs'
        · injection hs' with hs'; subst hs'
          rcases insert_refs hr' with h | h
          · exact hbut.2 _ (hg.1 r h)
          · exact hbut.2 _ (hc' key _ hkey' r h)
        · exact hbut.2 _ (hc' k s' hs' r hr')
      have hn' : NewOk E tab (insertKey key (.object fmt [] (insertKey (propName f) s props)) tab') := by
        intro k s' h0 hs'
        have hne : k ≠ key := fun h => by rw [h, hkey] at h0; cases h0
        rw [lookup_insertKey, if_neg hne] at hs'
        obtain ⟨i, pkg, name, fs, h1, h2, h3, h4⟩ := hn k s' h0 hs'
        exact ⟨i, pkg, name, fs, h1, h2, h3, fun g hg' => (h4 g hg').mono hbut.2⟩
      have ih := fields_def E key fmt sub hsub l _ _ hc'' (by rw [lookup_insertKey, if_pos rfl])
      have hb := (hk.but key).trans hbut
      cases hres : fieldsWith sub (some (key, fmt)) l (insertKey (propName f) s props) (insertKey key (.object fmt [] (insertKey (propName f) s props)) tab') with
      | err _ => rw [hres] at ih; exact ⟨ih.1, hb.trans ih.2⟩
      | errNil _ => rw [hres] at ih; exact ⟨ih.1, hb.trans ih.2⟩
      | panic _ => rw [hres] at ih; exact ⟨ih.1, hb.trans ih.2⟩
      | loop => trivial
      | ok ps tab'' =>
        rw [hres] at ih
        obtain ⟨i1, i2, i3, i4, i5, i6⟩ := ih
        refine ⟨i1, hb.trans i2, ?_, i4, props_cons i5, fun g hg' => ?_⟩
        · intro k s' h0 hs'
          have hne : k ≠ key := fun h => by rw [h, hkey] at h0; cases h0
          cases hm : lookupKey k (insertKey key (.object fmt [] (insertKey (propName f) s props)) tab') with
          | none => exact i3 k s' hm hs'
          | some s'' =>
            have := i2.1 k s'' hne hm
            rw [hs'] at this; injection this with this; subst this
            obtain ⟨i, pkg, name, fs, h1, h2, h3, h4⟩ := hn' k s' h0 hm
            exact ⟨i, pkg, name, fs, h1, h2, h3, fun g hg' => (h4 g hg').mono i2.2⟩
        · rcases List.mem_cons.1 hg' with rfl | hg'
          · exact hg.2.mono fun k hk' => i2.2 k (hbut.2 k hk')
          · exact i6 g hg'

/-- The main invariant. -/
theorem body_post (E : Env) : ∀ (n : Nat) (orig t : OTy) (tab : Table), Closed tab → Post E tab (body E n orig t tab) (Good E t)
  | 0, _, _, _, _ => trivial
  | n + 1, orig, t, tab, hc => by
    have hsub : ∀ doc t tab, Closed tab → Post E tab (fin doc (body E n t t tab)) (Good E t) := fun doc t tab hc => (body_post E n t t tab hc).fin doc
    cases t with
    | prim ty fmt => exact ⟨hc, Keeps.refl _, NewOk.refl _ _, (fun r h => by cases h), .prim ty fmt⟩
    | bad => exact ⟨hc, Keeps.refl _⟩
    | ptr t =>
      have := body_post E n orig t tab hc
      simp only [body]
      cases hr : body E n orig t tab with
      | ok s tab' => rw [hr] at this; exact ⟨this.1, this.2.1, this.2.2.1, this.2.2.2.1, .ptr this.2.2.2.2⟩
      | err _ => rw [hr] at this; exact this
      | errNil _ => rw [hr] at this; exact this
      | panic _ => rw [hr] at this; exact this
      | loop => trivial
    | arr t =>
      simp only [body]
      exact (hsub [] t tab hc).bind fun s tab' hc' _ hg => ⟨hc', Keeps.refl _, NewOk.refl _ _, hg.1, .arr hg.2⟩
    | map k t =>
      simp only [body]
      refine (hsub [] k tab hc).bind fun sk tab' hc' _ hg => ?_
      have := hsub [] t tab' hc'
      cases hr : fin [] (body E n t t tab') with
      | ok s tab'' =>
        rw [hr] at this
        exact ⟨this.1, this.2.1, this.2.2.1, this.2.2.2.1, .map (hg.2.mono fun _ => this.2.1.has) this.2.2.2.2⟩
      | err _ => rw [hr] at this; exact this
      | errNil _ => rw [hr] at this; exact this
      | panic _ => rw [hr] at this; exact this
      | loop => trivial
    | anon fs =>
      simp only [body]
      exact (fields_anon E _ hsub fs [] tab hc (fun r h => by cases h)).bind fun ps tab' hc' _ hg =>
        ⟨hc', Keeps.refl _, NewOk.refl _ _, hg.1, .anon hg.2⟩
    | ref i =>
      simp only [body]
      cases hd : E.defs i with
      | lit t =>
        have := body_post E n orig t tab hc
        simp only
        cases hr : body E n orig t tab with
        | ok s tab' => rw [hr] at this; exact ⟨this.1, this.2.1, this.2.2.1, this.2.2.2.1, .lit hd this.2.2.2.2⟩
        | err _ => rw [hr] at this; exact this
        | errNil _ => rw [hr] at this; exact this
        | panic _ => rw [hr] at this; exact this
        | loop => trivial
      | struct pkg name fs =>
        simp only
        cases hl : lookupKey (structKey pkg name) tab with
        | some s =>
          refine ⟨hc, Keeps.refl _, NewOk.refl _ _, fun r h => ?_, .struct hd ⟨s, hl⟩⟩
          simp only [Schema.refs, List.mem_singleton] at h
          subst h; exact ⟨s, hl⟩
        | none =>
          simp only
          have hkeep : Keeps tab (insertKey (structKey pkg name) (.object (E.str orig) [] []) tab) := by
            intro k s hs
            rw [lookup_insertKey, if_neg (fun h => by rw [h, hl] at hs; cases hs)]
            exact hs
          have hc1 : Closed (insertKey (structKey pkg name) (.object (E.str orig) [] []) tab) := by
            intro k s hs r hr
            rw [lookup_insertKey] at hs
            split at hs
            · injection hs with hs; subst hs; cases hr
            · exact hkeep.has (hc k s hs r hr)
          have hp := fields_def E (structKey pkg name) (E.str orig) _ hsub fs [] _ hc1 (by rw [lookup_insertKey, if_pos rfl])
          have hk : ∀ {b : Table}, KeepsBut (structKey pkg name) (insertKey (structKey pkg name) (.object (E.str orig) [] []) tab) b → Keeps tab b := by
            intro b hb k s hs
            exact hb.1 k s (fun h => by rw [h, hl] at hs; cases hs) (hkeep k s hs)
          cases hres : fieldsWith (fun doc t tab => fin doc (body E n t t tab)) (some (structKey pkg name, E.str orig)) fs []
              (insertKey (structKey pkg name) (.object (E.str orig) [] []) tab) with
          | err _ => rw [hres] at hp; exact ⟨hp.1, hk hp.2⟩
          | errNil _ => rw [hres] at hp; exact ⟨hp.1, hk hp.2⟩
          | panic _ => rw [hres] at hp; exact ⟨hp.1, hk hp.2⟩
          | loop => trivial
          | ok ps tab' =>
            rw [hres] at hp
            obtain ⟨p1, p2, p3, p4, p5, p6⟩ := hp
            refine ⟨p1, hk p2, ?_, fun r h => ?_, .struct hd ⟨_, p4⟩⟩
            · intro k s h0 hs
              by_cases hkk : k = structKey pkg name
              · subst hkk
                rw [p4] at hs; injection hs with hs; subst hs
                refine ⟨i, pkg, name, fs, hd, rfl, ⟨_, ps, rfl, fun p => ?_⟩, p6⟩
                rw [p5 p]; simp [lookupKey]
              · exact p3 k s (by rw [lookup_insertKey, if_neg hkk]; exact h0) hs
            · simp only [Schema.refs, List.mem_singleton] at h
              subst h; exact ⟨_, p4⟩

theorem schema_post (E : Env) (n : Nat) (doc : Str) (t : OTy) (tab : Table) (hc : Closed tab) : Post E tab (schema E n doc t tab) (Good E t) :=
  (body_post E n t t tab hc).fin doc

end Verif.Openapi

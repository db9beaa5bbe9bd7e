import Verif.Openapi.Lemmas
/-!
# Lemmas on how the walk over a type ends
-/
set_option autoImplicit false
namespace Verif.Openapi
open Verif.Strconv Verif.Enc

/-! ### more fuel changes nothing -/

/-- If the first call ends then the second ends in the same way. -/
def Same {α : Type} (r r' : R α) : Prop := r ≠ .loop → r' = r

theorem Same.bind {α β : Type} {r r' : R α} {f f' : α → Table → R β} (h : Same r r') (hf : ∀ a tab, Same (f a tab) (f' a tab)) : Same (r.bind f) (r'.bind f') := by
  intro hl
  have hr : r ≠ .loop := fun he => hl (by rw [he]; rfl)
  rw [h hr]
  cases r with
  | ok a tab => exact hf a tab hl
  | err _ => rfl
  | errNil _ => rfl
  | panic _ => rfl
  | loop => exact absurd rfl hr

theorem fin_loop {doc : Str} {r : R Schema} : fin doc r = .loop ↔ r = .loop := by cases r <;> simp [fin]

theorem Same.fin {r r' : R Schema} (doc : Str) (h : Same r r') : Same (fin doc r) (fin doc r') := fun hl => by rw [h fun he => hl (fin_loop.2 he)]

theorem Same.refl {α : Type} (r : R α) : Same r r := fun _ => rfl

theorem fields_same {sub sub' : Str → OTy → Table → R Schema} (h : ∀ doc t tab, Same (sub doc t tab) (sub' doc t tab)) (d : Option (Str × Str)) :
    ∀ (l : List Field) (props : List (Str × Schema)) (tab : Table), Same (fieldsWith sub d l props tab) (fieldsWith sub' d l props tab)
  | [], _, _ => Same.refl _
  | (f, doc, t) :: l, props, tab => by
    unfold fieldsWith
    exact (h doc t tab).bind fun s tab => fields_same h d l _ _

theorem body_succ (E : Env) : ∀ (n : Nat) (orig t : OTy) (tab : Table), Same (body E n orig t tab) (body E (n + 1) orig t tab)
  | 0, _, _, _ => fun h => absurd rfl h
  | n + 1, orig, t, tab => by
    have hsub : ∀ doc t tab, Same (fin doc (body E n t t tab)) (fin doc (body E (n + 1) t t tab)) := fun doc t tab => (body_succ E n t t tab).fin doc
    cases t with
    | prim ty fmt => exact Same.refl _
    | bad => exact Same.refl _
    | ptr t => exact body_succ E n orig t tab
    | arr t => exact (hsub [] t tab).bind fun s tab => Same.refl _
    | map k t => exact (hsub [] k tab).bind fun sk tab => (hsub [] t tab).bind fun s tab => Same.refl _
    | anon fs => exact (fields_same hsub none fs [] tab).bind fun ps tab => Same.refl _
    | ref i =>
      rw [body, body]
      cases E.defs i with
      | lit t => exact body_succ E n orig t tab
      | struct pkg name fs =>
        simp only
        cases lookupKey (structKey pkg name) tab with
        | some _ => exact Same.refl _
        | none => exact (fields_same hsub _ fs [] _).bind fun ps tab => Same.refl _

theorem body_more (E : Env) {n m : Nat} (h : n ≤ m) (orig t : OTy) (tab : Table) : Same (body E n orig t tab) (body E m orig t tab) := by
  induction h with
  | refl => exact Same.refl _
  | step _ ih => exact fun hl => by rw [body_succ E _ orig t tab (by rw [ih hl]; exact hl), ih hl]

theorem schema_more (E : Env) {n m : Nat} (h : n ≤ m) (doc : Str) (t : OTy) (tab : Table) : Same (schema E n doc t tab) (schema E m doc t tab) :=
  (body_more E h t t tab).fin doc

/-! ### tables only grow -/

/-- Every key stays. -/
def Grows {α : Type} (tab : Table) (r : R α) : Prop := ∀ tab', r.tab = some tab' → ∀ k, Has tab k → Has tab' k

theorem Grows.bind {α β : Type} {tab : Table} {r : R α} {f : α → Table → R β} (h : Grows tab r) (hf : ∀ a tab', r = .ok a tab' → Grows tab' (f a tab')) : Grows tab (r.bind f) := by
  cases r with
  | ok a tab' => exact fun tab'' h'' k hk => hf a tab' rfl tab'' h'' k (h tab' rfl k hk)
  | err _ => exact h
  | errNil _ => exact h
  | panic _ => exact h
  | loop => exact h

theorem Grows.ok {α : Type} (a : α) (tab : Table) : Grows tab (.ok a tab) := fun tab' h k hk => by injection h with h; subst h; exact hk

theorem Grows.fin {tab : Table} {r : R Schema} (doc : Str) (h : Grows tab r) : Grows tab (fin doc r) := by cases r <;> exact h

theorem Grows.from {α : Type} {a b : Table} {r : R α} (h : ∀ k, Has a k → Has b k) (hg : Grows b r) : Grows a r := fun tab' ht k hk => hg tab' ht k (h k hk)

theorem fields_grow {sub : Str → OTy → Table → R Schema} (h : ∀ doc t tab, Grows tab (sub doc t tab)) (d : Option (Str × Str)) :
    ∀ (l : List Field) (props : List (Str × Schema)) (tab : Table), Grows tab (fieldsWith sub d l props tab)
  | [], _, _ => Grows.ok _ _
  | (f, doc, t) :: l, props, tab => by
    unfold fieldsWith
    refine (h doc t tab).bind fun s tab' _ => ?_
    cases d with
    | none => exact fields_grow h none l _ _
    | some p => exact (fields_grow h (some p) l _ _).from (keepsBut_insert p.1 _ tab').2

theorem body_grows (E : Env) : ∀ (n : Nat) (orig t : OTy) (tab : Table), Grows tab (body E n orig t tab)
  | 0, _, _, _ => fun _ h => by cases h
  | n + 1, orig, t, tab => by
    have hsub : ∀ doc t tab, Grows tab (fin doc (body E n t t tab)) := fun doc t tab => (body_grows E n t t tab).fin doc
    cases t with
    | prim ty fmt => exact Grows.ok _ _
    | bad => exact fun tab' h k hk => by injection h with h; subst h; exact hk
    | ptr t => exact body_grows E n orig t tab
    | arr t => exact (hsub [] t tab).bind fun s tab _ => Grows.ok _ _
    | map k t => exact (hsub [] k tab).bind fun sk tab _ => (hsub [] t tab).bind fun s tab _ => Grows.ok _ _
    | anon fs => exact (fields_grow hsub none fs [] tab).bind fun ps tab _ => Grows.ok _ _
    | ref i =>
      rw [body]
      cases E.defs i with
      | lit t => exact body_grows E n orig t tab
      | struct pkg name fs =>
        simp only
        cases lookupKey (structKey pkg name) tab with
        | some _ => exact Grows.ok _ _
        | none => exact ((fields_grow hsub _ fs [] _).bind fun ps tab _ => Grows.ok _ _).from (keepsBut_insert _ _ tab).2

/-! ### the walk ends -/

open Classical in
/-- How many of the keys are not in the table. -/
noncomputable def missing (keys : List Str) (tab : Table) : Nat := (keys.filter fun k => !decide (Has tab k)).length

theorem missing_le (keys : List Str) {a b : Table} (h : ∀ k, Has a k → Has b k) : missing keys b ≤ missing keys a := by
  unfold missing
  induction keys with
  | nil => simp
  | cons k keys ih =>
    simp only [List.filter_cons]
    by_cases hb : Has b k
    · by_cases ha : Has a k
      · simpa [ha, hb] using ih
      · simp [ha, hb]; omega
    · have ha : ¬ Has a k := fun ha => hb (h k ha)
      simpa [ha, hb] using ih

theorem missing_lt {keys : List Str} {key : Str} (hk : key ∈ keys) {a b : Table} (h : ∀ k, Has a k → Has b k) (ha : ¬ Has a key) (hb : Has b key) :
    missing keys b < missing keys a := by
  unfold missing
  induction keys with
  | nil => cases hk
  | cons k keys ih =>
    have hle := missing_le keys h
    unfold missing at hle
    simp only [List.filter_cons]
    rcases List.mem_cons.1 hk with rfl | hk
    · simp [ha, hb]; omega
    · have := ih hk
      by_cases hb' : Has b k
      · by_cases ha' : Has a k
        · simpa [ha', hb'] using this
        · simp [ha', hb']; omega
      · have ha' : ¬ Has a k := fun ha => hb' (h k ha)
        simpa [ha', hb'] using this

/-- The loop over the fields ends if the calls do. -/
theorem fields_end (E : Env) (keys : List Str) (m : Nat) (d : Option (Str × Str)) : ∀ (l : List Field),
    (∀ f ∈ l, ∀ tab, missing keys tab ≤ m → ∃ n, body E n f.2.2 f.2.2 tab ≠ .loop) → ∀ (props : List (Str × Schema)) (tab : Table), missing keys tab ≤ m →
      ∃ n, fieldsWith (fun doc t tab => fin doc (body E n t t tab)) d l props tab ≠ .loop
  | [], _, props, tab, _ => ⟨0, fun h => by cases h⟩
  | (f, doc, t) :: l, hl, props, tab, hm => by
    obtain ⟨n, hn⟩ := hl _ (List.mem_cons_self ..) tab hm
    simp only at hn
    cases hr : body E n t t tab with
    | loop => exact absurd hr hn
    | ok s tab' =>
      have hg := (body_grows E n t t tab) tab' (by rw [hr]; rfl)
      have hg' : ∀ k, Has tab k → Has (match d with
          | some (key, fmt) => insertKey key (Schema.object fmt [] (insertKey (propName f) (s.finish doc) props)) tab'
          | none => tab') k := by
        cases d with
        | none => exact hg
        | some p => exact fun k hk => (keepsBut_insert p.1 _ tab').2 k (hg k hk)
      obtain ⟨n', hn'⟩ := fields_end E keys m d l (fun g hg => hl g (List.mem_cons_of_mem _ hg)) (insertKey (propName f) (s.finish doc) props) _
        (Nat.le_trans (missing_le keys hg') hm)
      refine ⟨max n n', ?_⟩
      rw [fieldsWith, body_more E (Nat.le_max_left n n') t t tab (by rw [hr]; exact fun h => by cases h), hr]
      have hfin : fin doc (.ok s tab') = .ok (s.finish doc) tab' := rfl
      rw [hfin]
      simp only [R.bind]
      exact fun hc => hn' ((fields_same (fun doc t tab => (body_more E (Nat.le_max_right n n') t t tab).fin doc) d l _ _ hn').symm.trans hc)
    | err tab' => exact ⟨n, by rw [fieldsWith, hr]; exact fun h => by cases h⟩
    | errNil tab' => exact ⟨n, by rw [fieldsWith, hr]; exact fun h => by cases h⟩
    | panic tab' => exact ⟨n, by rw [fieldsWith, hr]; exact fun h => by cases h⟩

theorem body_end (E : Env) (keys : List Str) (hE : E.Finite keys) : ∀ (m : Nat) {t : OTy}, Guarded E t → ∀ (orig : OTy) (tab : Table), missing keys tab ≤ m →
    ∃ n, body E n orig t tab ≠ .loop := by
  intro m
  induction m using Nat.strongRecOn with
  | _ m ihm =>
    intro t ht
    induction ht with
    | prim ty fmt => exact fun orig tab _ => ⟨1, fun h => by cases h⟩
    | bad => exact fun orig tab _ => ⟨1, fun h => by cases h⟩
    | ptr _ ih => exact fun orig tab hm => let ⟨n, hn⟩ := ih orig tab hm; ⟨n + 1, hn⟩
    | @arr t _ ih =>
      intro orig tab hm
      obtain ⟨n, hn⟩ := ih t tab hm
      refine ⟨n + 1, ?_⟩
      rw [body]
      cases hr : body E n t t tab with
      | loop => exact absurd hr hn
      | ok _ _ => exact fun h => by cases h
      | err _ => exact fun h => by cases h
      | errNil _ => exact fun h => by cases h
      | panic _ => exact fun h => by cases h
    | @map k t _ _ ihk iht =>
      intro orig tab hm
      obtain ⟨n, hn⟩ := ihk k tab hm
      cases hr : body E n k k tab with
      | loop => exact absurd hr hn
      | err _ => exact ⟨n + 1, by rw [body, hr]; exact fun h => by cases h⟩
      | errNil _ => exact ⟨n + 1, by rw [body, hr]; exact fun h => by cases h⟩
      | panic _ => exact ⟨n + 1, by rw [body, hr]; exact fun h => by cases h⟩
      | ok s tab' =>
        have hg := (body_grows E n k k tab) tab' (by rw [hr]; rfl)
        obtain ⟨n', hn'⟩ := iht t tab' (Nat.le_trans (missing_le keys hg) hm)
        refine ⟨max n n' + 1, ?_⟩
        rw [body, body_more E (Nat.le_max_left n n') k k tab (by rw [hr]; exact fun h => by cases h), hr]
        simp only [fin, R.bind]
        rw [body_more E (Nat.le_max_right n n') t t tab' hn']
        cases hr' : body E n' t t tab' with
        | loop => exact absurd hr' hn'
        | ok _ _ => exact fun h => by cases h
        | err _ => exact fun h => by cases h
        | errNil _ => exact fun h => by cases h
        | panic _ => exact fun h => by cases h
    | @anon fs _ ih =>
      intro orig tab hm
      obtain ⟨n, hn⟩ := fields_end E keys m none fs (fun f hf tab hm => ih f hf f.2.2 tab hm) [] tab hm
      refine ⟨n + 1, ?_⟩
      rw [body]
      cases hr : fieldsWith (fun doc t tab => fin doc (body E n t t tab)) none fs [] tab with
      | loop => exact absurd hr hn
      | ok _ _ => exact fun h => by cases h
      | err _ => exact fun h => by cases h
      | errNil _ => exact fun h => by cases h
      | panic _ => exact fun h => by cases h
    | lit hd _ ih =>
      intro orig tab hm
      obtain ⟨n, hn⟩ := ih orig tab hm
      exact ⟨n + 1, by rw [body, hd]; exact hn⟩
    | @struct i pkg name fs hd =>
      intro orig tab hm
      obtain ⟨hkey, hfs⟩ := hE i pkg name fs hd
      cases hl : lookupKey (structKey pkg name) tab with
      | some s => exact ⟨1, by rw [body, hd]; simp only [hl]; exact fun h => by cases h⟩
      | none =>
        have hlt : missing keys (insertKey (structKey pkg name) (Schema.object (E.str orig) [] []) tab) < m :=
          Nat.lt_of_lt_of_le (missing_lt hkey (keepsBut_insert _ _ tab).2 (fun ⟨s, hs⟩ => by rw [hl] at hs; cases hs)
            ⟨_, by rw [lookup_insertKey, if_pos rfl]⟩) hm
        obtain ⟨n, hn⟩ := fields_end E keys _ (some (structKey pkg name, E.str orig)) fs (fun f hf tab hm => ihm _ hlt (hfs f hf) f.2.2 tab hm) [] _ (Nat.le_refl _)
        refine ⟨n + 1, ?_⟩
        rw [body, hd]
        simp only [hl]
        cases hr : fieldsWith (fun doc t tab => fin doc (body E n t t tab)) (some (structKey pkg name, E.str orig)) fs []
            (insertKey (structKey pkg name) (Schema.object (E.str orig) [] []) tab) with
        | loop => exact absurd hr hn
        | ok _ _ => exact fun h => by cases h
        | err _ => exact fun h => by cases h
        | errNil _ => exact fun h => by cases h
        | panic _ => exact fun h => by cases h

/-! ### types without schema -/

/-- Ends well, or not at all. -/
def Well {α : Type} (r : R α) : Prop := r = .loop ∨ ∃ a tab, r = .ok a tab

theorem Well.bind {α β : Type} {r : R α} {f : α → Table → R β} (h : Well r) (hf : ∀ a tab, Well (f a tab)) : Well (r.bind f) := by
  rcases h with rfl | ⟨a, tab, rfl⟩
  · exact Or.inl rfl
  · exact hf a tab

theorem Well.ok {α : Type} (a : α) (tab : Table) : Well (.ok a tab) := Or.inr ⟨a, tab, rfl⟩

theorem Well.fin {r : R Schema} (doc : Str) (h : Well r) : Well (fin doc r) := by
  rcases h with rfl | ⟨a, tab, rfl⟩
  · exact Or.inl rfl
  · exact Or.inr ⟨_, tab, rfl⟩

theorem fields_well {sub : Str → OTy → Table → R Schema} (d : Option (Str × Str)) :
    ∀ (l : List Field), (∀ f ∈ l, ∀ doc tab, Well (sub doc f.2.2 tab)) → ∀ (props : List (Str × Schema)) (tab : Table), Well (fieldsWith sub d l props tab)
  | [], _, _, _ => Well.ok _ _
  | (f, doc, t) :: l, h, props, tab => by
    unfold fieldsWith
    exact (h _ (List.mem_cons_self ..) doc tab).bind fun s tab => fields_well d l (fun g hg => h g (List.mem_cons_of_mem _ hg)) _ _

theorem body_well (E : Env) : ∀ (n : Nat) (orig t : OTy) (tab : Table), ¬ HasBad E t → Well (body E n orig t tab)
  | 0, _, _, _, _ => Or.inl rfl
  | n + 1, orig, t, tab, hb => by
    have hsub : ∀ t, ¬ HasBad E t → ∀ doc tab, Well (fin doc (body E n t t tab)) := fun t hb doc tab => (body_well E n t t tab hb).fin doc
    cases t with
    | prim ty fmt => exact Well.ok _ _
    | bad => exact absurd .bad hb
    | ptr t => exact body_well E n orig t tab fun h => hb (.ptr h)
    | arr t => exact (hsub t (fun h => hb (.arr h)) [] tab).bind fun s tab => Well.ok _ _
    | map k t => exact (hsub k (fun h => hb (.key h)) [] tab).bind fun sk tab => (hsub t (fun h => hb (.elem h)) [] tab).bind fun s tab => Well.ok _ _
    | anon fs => exact (fields_well none fs (fun f hf => hsub f.2.2 fun h => hb (.anon hf h)) [] tab).bind fun ps tab => Well.ok _ _
    | ref i =>
      rw [body]
      cases hd : E.defs i with
      | lit t => exact body_well E n orig t tab fun h => hb (.lit hd h)
      | struct pkg name fs =>
        simp only
        cases lookupKey (structKey pkg name) tab with
        | some _ => exact Well.ok _ _
        | none => exact (fields_well _ fs (fun f hf => hsub f.2.2 fun h => hb (.struct hd hf h)) [] _).bind fun ps tab => Well.ok _ _

theorem bind_err {α β : Type} {r : R α} {f : α → Table → R β} {tab : Table} (h : r.bind f = .err tab) : ∃ a t, r = .ok a t ∧ f a t = .err tab := by
  cases r with
  | ok a t => exact ⟨a, t, rfl, h⟩
  | err _ => cases h
  | errNil _ => cases h
  | panic _ => cases h
  | loop => cases h

/-- An error comes from the type itself. -/
theorem body_err (E : Env) : ∀ (n : Nat) (orig t : OTy) (tab tab' : Table), body E n orig t tab = .err tab' → IsBad E t
  | 0, _, _, _, _, h => by cases h
  | n + 1, orig, t, tab, tab', h => by
    cases t with
    | prim ty fmt => cases h
    | bad => exact .bad
    | ptr t => exact .ptr (body_err E n orig t tab tab' h)
    | arr t => obtain ⟨_, _, _, h⟩ := bind_err h; cases h
    | map k t => obtain ⟨_, _, _, h⟩ := bind_err h; obtain ⟨_, _, _, h⟩ := bind_err h; cases h
    | anon fs => obtain ⟨_, _, _, h⟩ := bind_err h; cases h
    | ref i =>
      rw [body] at h
      cases hd : E.defs i with
      | lit t => rw [hd] at h; exact .lit hd (body_err E n orig t tab tab' h)
      | struct pkg name fs =>
        rw [hd] at h
        simp only at h
        split at h
        · cases h
        · obtain ⟨_, _, _, h⟩ := bind_err h; cases h

theorem body_isBad (E : Env) {t : OTy} (h : IsBad E t) : ∀ (n : Nat) (orig : OTy) (tab : Table), body E n orig t tab = .loop ∨ body E n orig t tab = .err tab := by
  induction h with
  | bad => intro n orig tab; cases n <;> simp [body]
  | ptr _ ih =>
    intro n orig tab
    cases n with
    | zero => exact Or.inl rfl
    | succ n => exact ih n orig tab
  | lit hd _ ih =>
    intro n orig tab
    cases n with
    | zero => exact Or.inl rfl
    | succ n => rw [body, hd]; exact ih n orig tab

/-- A table of structs that are all right. -/
def FineTable (E : Env) (tab : Table) : Prop := ∀ k, Has tab k → ∃ i pkg name fs, E.defs i = .struct pkg name fs ∧ structKey pkg name = k ∧ ∀ f ∈ fs, Fine E tab f.2.2

theorem fine_not_bad {E : Env} (hE : E.DistinctKeys) {tab : Table} (ht : FineTable E tab) {t : OTy} (hb : HasBad E t) : ¬ Fine E tab t := by
  induction hb with
  | bad => intro h; cases h
  | ptr _ ih => intro h; cases h with | ptr h => exact ih h
  | arr _ ih => intro h; cases h with | arr h => exact ih h
  | key _ ih => intro h; cases h with | map h _ => exact ih h
  | elem _ ih => intro h; cases h with | map _ h => exact ih h
  | anon hf _ ih => intro h; cases h with | anon h => exact ih (h _ hf)
  | lit hd _ ih =>
    intro h
    cases h with
    | lit hd' h => rw [hd] at hd'; cases hd'; exact ih h
    | struct hd' _ => rw [hd] at hd'; cases hd'
  | struct hd hf _ ih =>
    intro h
    cases h with
    | lit hd' h => rw [hd] at hd'; cases hd'
    | struct hd' hk =>
      rw [hd] at hd'; cases hd'
      obtain ⟨j, pkg', name', fs', h1, h2, h3⟩ := ht _ hk
      have := hE _ _ _ _ _ _ _ _ hd h1 h2.symm
      subst this
      exact ih (h3 _ hf)

end Verif.Openapi

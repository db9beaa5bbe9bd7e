import Verif.Http.Address
/-!
# Which urls can be called (C180): http/client.go, http/api.go

The paths for which client, server and multiplexer agree are exactly the clean ones: all the other APIs are registered, and nobody ever reaches them.
-/
set_option autoImplicit false
namespace Verif.Http.Address.Dots
open Verif.Http.Address

/-! ### clean paths -/

theorem split_cons (s : B) : split (47 :: s) = [] :: split s := by
  conv => lhs; unfold split
  rw [if_pos rfl]

theorem split_other (c : UInt8) (s e : B) (l : List B) (hc : c ≠ 47) (h : split s = e :: l) : split (c :: s) = (c :: e) :: l := by
  conv => lhs; unfold split
  rw [if_neg hc, h]

theorem split_ne (s : B) : ∃ e l, split s = e :: l := by
  have hj := split_join s
  cases h : split s with
  | nil => rw [h] at hj; simp at hj
  | cons e l => exact ⟨e, l, rfl⟩

/-- Elements without slashes, written one after the other, are found again. -/
theorem split_elems : ∀ (l : List B) (x : B), (∀ y ∈ x :: l, ∀ c ∈ y, c ≠ 47) → split (x ++ l.flatMap (47 :: ·)) = x :: l
  | [], [], _ => rfl
  | y :: l, [], h => by
    show split (47 :: (y ++ l.flatMap (47 :: ·))) = _
    rw [split_cons, split_elems l y fun z hz => h z (List.mem_cons_of_mem _ hz)]
  | l, c :: x, h => by
    have ih := split_elems l x fun y hy => by
      rcases List.mem_cons.1 hy with rfl | hy
      · exact fun d hd => h (c :: y) (List.mem_cons_self ..) d (List.mem_cons_of_mem _ hd)
      · exact h y (List.mem_cons_of_mem _ hy)
    exact split_other c _ x l (h (c :: x) (List.mem_cons_self ..) c (List.mem_cons_self ..)) ih

/-- What `path.Clean` keeps. -/
theorem elems_kept (l acc : List B) (P : B → Prop) (hl : ∀ x ∈ l, P x) (ha : ∀ x ∈ acc, P x ∧ x ≠ [] ∧ x ≠ [46] ∧ x ≠ [46, 46]) :
    ∀ x ∈ cleanElems acc l, P x ∧ x ≠ [] ∧ x ≠ [46] ∧ x ≠ [46, 46] := by
  induction l generalizing acc with
  | nil => intro x hx; exact ha x (by simpa [cleanElems] using hx)
  | cons e l ih =>
    have hl' : ∀ x ∈ l, P x := fun x hx => hl x (List.mem_cons_of_mem _ hx)
    unfold cleanElems
    split
    · exact ih acc hl' ha
    · rename_i h1
      split
      · exact ih _ hl' fun x hx => ha x (List.mem_of_mem_tail hx)
      · rename_i h2
        refine ih _ hl' fun x hx => ?_
        rcases List.mem_cons.1 hx with rfl | hx
        · exact ⟨hl x (List.mem_cons_self ..), fun h => h1 (Or.inl h), fun h => h1 (Or.inr h), h2⟩
        · exact ha x hx

/-- The multiplexer makes all paths clean. -/
theorem clean_always (p : B) : Clean (cleanPath p) := by
  have hk := elems_kept (split p) [] (fun x => ∀ c ∈ x, c ≠ 47) (split_elem p) (fun _ h => by cases h)
  unfold cleanPath
  generalize cleanElems [] (split p) = l at hk
  simp only
  cases l with
  | nil =>
    rw [if_pos rfl]
    unfold Clean NoDots
    decide
  | cons y l =>
    rw [if_neg (by simp)]
    have hs : ∀ t : List B, (∀ x ∈ t, ∀ c ∈ x, c ≠ 47) → split ((y :: l).flatMap (47 :: ·) ++ t.flatMap (47 :: ·)) = [] :: y :: l ++ t := fun t ht => by
      have := split_elems (y :: l ++ t) [] fun x hx c hc => by
        rcases List.mem_cons.1 hx with rfl | hx
        · cases hc
        · rcases List.mem_append.1 hx with hx | hx
          · exact (hk x hx).1 c hc
          · exact ht x hx c hc
      rw [List.flatMap_append] at this
      exact this
    split
    · have h := hs [[]] (by simp)
      refine ⟨rfl, ?_, ?_⟩
      · intro x hx
        rw [show [47] = ([[]] : List B).flatMap (47 :: ·) from rfl, h] at hx
        simp only [List.cons_append, List.mem_cons, List.mem_append, List.not_mem_nil, or_false] at hx
        rcases hx with rfl | rfl | hx | rfl
        · decide
        · exact (hk x (List.mem_cons_self ..)).2.2
        · exact (hk x (List.mem_cons_of_mem _ hx)).2.2
        · decide
      · intro x hx
        rw [show [47] = ([[]] : List B).flatMap (47 :: ·) from rfl, h] at hx
        rw [List.cons_append, List.tail_cons, List.dropLast_concat] at hx
        exact (hk x hx).2.1
    · have h := hs [] (by simp)
      refine ⟨rfl, ?_, ?_⟩
      · intro x hx
        rw [show [] = ([] : List B).flatMap (47 :: ·) from rfl, h] at hx
        simp only [List.append_nil, List.mem_cons] at hx
        rcases hx with rfl | hx
        · decide
        · exact (hk x (List.mem_cons.2 hx)).2.2
      · intro x hx
        rw [show [] = ([] : List B).flatMap (47 :: ·) from rfl, h] at hx
        rw [List.append_nil, List.tail_cons] at hx
        exact (hk x (List.dropLast_subset _ hx)).2.1

/-- Clean paths are those the multiplexer leaves alone. -/
theorem clean_iff (p : B) : Clean p ↔ cleanPath p = p := ⟨clean_path p, fun h => h ▸ clean_always p⟩

/-! ### dots and escapes -/

theorem hex_slash (c x : UInt8) (h : hexVal c = some x) : c ≠ 47 := by
  rintro rfl
  rw [show hexVal 47 = none from by decide] at h
  cases h

/-- Elements of dots are not hidden by unescaping. -/
theorem dots_kept (e : B) : ∀ (p : B), unescape e = some p → ∀ x : B, (∀ c ∈ x, c = 46) →
    ((split e).head? = some x → (split p).head? = some x) ∧ (x ∈ (split e).tail → x ∈ (split p).tail) := by
  induction h : e.length using Nat.strongRecOn generalizing e with
  | ind n ih =>
    intro p hu x hx
    cases e with
    | nil => simp only [unescape, Option.some.injEq] at hu; subst hu; exact ⟨id, id⟩
    | cons c s =>
      unfold unescape at hu
      split at hu
      · rename_i hc
        split at hu
        · rename_i a b s'
          split at hu
          · rename_i v w ha hb
            obtain ⟨q, hq, rfl⟩ := Option.map_eq_some_iff.1 hu
            obtain ⟨i1, i2⟩ := ih s'.length (by simp [← h]; omega) s' rfl q hq x hx
            obtain ⟨y, l, hs⟩ := split_ne s'
            obtain ⟨y', l', hq'⟩ := split_ne q
            have h3 : split (c :: a :: b :: s') = (c :: a :: b :: y) :: l :=
              split_other _ _ _ _ (by rw [hc]; decide) (split_other _ _ _ _ (hex_slash a _ ha) (split_other _ _ _ _ (hex_slash b _ hb) hs))
            rw [h3]
            refine ⟨fun hh => ?_, fun hh => ?_⟩
            · injection hh with hh
              have := hx c (by rw [← hh]; simp)
              rw [hc] at this; exact absurd this (by decide)
            · have hm := i2 (by rw [hs]; exact hh)
              rw [hq'] at hm
              by_cases hv : v * 16 + w = 47
              · rw [hv, split_cons, hq']; exact List.mem_cons_of_mem _ hm
              · rw [split_other _ _ _ _ hv hq']; exact hm
          · cases hu
        · cases hu
      · obtain ⟨q, hq, rfl⟩ := Option.map_eq_some_iff.1 hu
        obtain ⟨y, l, hs⟩ := split_ne s
        obtain ⟨y', l', hq'⟩ := split_ne q
        by_cases hc : c = 47
        · subst hc
          rw [split_cons, split_cons]
          refine ⟨id, fun hh => ?_⟩
          obtain ⟨i1, i2⟩ := ih s.length (by simp [← h]) s rfl q hq x hx
          rw [List.tail_cons] at hh ⊢
          rw [hs] at hh i1 i2
          rw [hq'] at i1 i2 ⊢
          rcases List.mem_cons.1 hh with rfl | hh
          · have := i1 rfl
            injection this with this
            rw [this]; exact List.mem_cons_self ..
          · exact List.mem_cons_of_mem _ (i2 hh)
        · rw [split_other _ _ _ _ hc hs, split_other _ _ _ _ hc hq']
          refine ⟨fun hh => ?_, fun hh => ?_⟩
          · injection hh with hh
            have hy : ∀ c ∈ y, c = 46 := fun d hd => hx d (by rw [← hh]; exact List.mem_cons_of_mem _ hd)
            have := (ih s.length (by simp [← h]) s rfl q hq y hy).1 (by rw [hs]; rfl)
            rw [hq'] at this
            injection this with this
            rw [this, ← hh]; rfl
          · have := (ih s.length (by simp [← h]) s rfl q hq x hx).2 (by rw [hs]; exact hh)
            rw [hq'] at this
            exact this

theorem nodots_escaped (e p : B) (h : unescape e = some p) (hp : NoDots p) : NoDots e := by
  have key : ∀ x : B, (∀ c ∈ x, c = 46) → x ∈ split e → x ∈ split p := fun x hx hm => by
    obtain ⟨i1, i2⟩ := dots_kept e p h x hx
    obtain ⟨y, l, hs⟩ := split_ne e
    obtain ⟨y', l', hq⟩ := split_ne p
    rw [hs] at hm i1 i2
    rw [hq] at i1 i2 ⊢
    rcases List.mem_cons.1 hm with rfl | hm
    · have := i1 rfl
      injection this with this
      rw [this]; exact List.mem_cons_self ..
    · exact List.mem_cons_of_mem _ (i2 hm)
  intro x hx
  refine ⟨fun h => ?_, fun h => ?_⟩
  · subst h; exact (hp _ (key _ (by simp) hx)).1 rfl
  · subst h; exact (hp _ (key _ (by simp) hx)).2 rfl

theorem single_slash (e p : B) (h : unescape e = some p) (hp : Clean p) : e.take 2 ≠ [47, 47] := by
  intro h2
  cases e with
  | nil => cases h2
  | cons a e =>
    cases e with
    | nil => simp at h2
    | cons b e =>
      simp only [List.take_succ_cons, List.take_zero, List.cons.injEq, and_true] at h2
      obtain ⟨rfl, rfl⟩ := h2
      have hx : ∀ t, unescape (47 :: t) = (unescape t).map (47 :: ·) := fun t => by
        conv => lhs; unfold unescape
        rw [if_neg (by decide)]
      rw [hx, hx, Option.map_map] at h
      obtain ⟨q, -, rfl⟩ := Option.map_eq_some_iff.1 h
      obtain ⟨y, l, hq⟩ := split_ne q
      have hs : split (47 :: 47 :: q) = [] :: [] :: y :: l := by rw [split_cons, split_cons, hq]
      exact hp.2.2 [] (by rw [show ((fun x => 47 :: x) ∘ fun x => 47 :: x) q = 47 :: 47 :: q from rfl, hs]; simp) rfl

/-! ### C180 -/

/-- C180: exactly the APIs with a clean path can be called: for those the client's request arrives where the server registers them, and the multiplexer looks for the handler there. -/
theorem C180_iff_partial (A : B → Option B) (b : URL) (hb : Base A b) (tag : B) (u : URL) (hr : Rooted tag) (hu : parse A false tag = some u) :
    (∃ p, registered A tag = some p ∧ arrives A (some b) tag = some (b.host, p) ∧ routed p = .inr p) ↔ Clean u.path := by
  obtain ⟨hrel, -⟩ := parse_tag A tag u hr hu
  refine ⟨fun ⟨p, h1, _, h3⟩ => ?_, fun hc => ?_⟩
  · have hp : u.path = p := by
      unfold registered at h1
      rw [hu] at h1
      injection h1
    rw [hp, clean_iff]
    unfold routed at h3
    split at h3
    · assumption
    · cases h3
  · exact C180_routed_partial A b hb tag u hr hu (single_slash _ _ hrel.written.reads hc) (nodots_escaped _ _ hrel.written.reads hc.2.1) hc

/-- C180 is violated: every API whose path has dots or an empty element is registered, and no request whatever is handled there. -/
theorem C180_dead_violated (A : B → Option B) (tag : B) (u : URL) (hu : parse A false tag = some u) (hc : ¬ Clean u.path) :
    registered A tag = some u.path ∧ ∀ q, routed q ≠ .inr u.path := by
  refine ⟨by unfold registered; rw [hu]; rfl, fun q h => hc ?_⟩
  unfold routed at h
  split at h
  · rename_i hq
    injection h with h
    rw [← h]
    exact (clean_iff q).2 hq
  · cases h

/-- Dots, an empty element, and an escaped dot: registered, and never reached. -/
example : ∀ t ∈ [asc "/a/../b", asc "/a/./b", asc "/a//b", asc "/a/%2E%2E/b", asc "/a/."], ∃ p, registered some t = some p ∧ ∀ q, routed q ≠ .inr p := by
  intro t ht
  have : ∃ u, parse some false t = some u ∧ ¬ Clean u.path := by
    unfold Clean NoDots
    simp only [List.mem_cons, List.not_mem_nil, or_false] at ht
    rcases ht with rfl | rfl | rfl | rfl | rfl
    · exact ⟨{ path := asc "/a/../b" }, by decide +kernel, by decide +kernel⟩
    · exact ⟨{ path := asc "/a/./b" }, by decide +kernel, by decide +kernel⟩
    · exact ⟨{ path := asc "/a//b" }, by decide +kernel, by decide +kernel⟩
    · exact ⟨{ path := asc "/a/../b", raw := asc "/a/%2E%2E/b" }, by decide +kernel, by decide +kernel⟩
    · exact ⟨{ path := asc "/a/." }, by decide +kernel, by decide +kernel⟩
  obtain ⟨u, h1, h2⟩ := this
  exact ⟨_, C180_dead_violated some t u h1 h2⟩

/-- Elements that only begin with dots are clean. -/
example : Clean (asc "/...") ∧ Clean (asc "/a/..b/.c/") ∧ Clean (asc "/") ∧ ¬ Clean (asc "//") ∧ ¬ Clean (asc "a") := by
  unfold Clean NoDots
  decide +kernel

end Verif.Http.Address.Dots

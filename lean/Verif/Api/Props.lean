import Verif.Api.Spec
import Verif.Api.Lemmas
import Verif.Enc.JsonProps
/-!
# Properties of api handlers
-/
set_option autoImplicit false
namespace Verif.Api
open Verif.Strconv Verif.Enc

/-! ### C53: tags -/

theorem splitComma_ne (s : Str) : splitComma s ≠ [] := by
  cases s with
  | nil => simp [splitComma]
  | cons c cs => simp only [splitComma]; split <;> (try split) <;> simp

/-- Splitting gives the comma-free words that make up the text. -/
theorem C53_split (s : Str) : joinComma (splitComma s) = s ∧ ∀ w ∈ splitComma s, ',' ∉ w := by
  induction s with
  | nil => simp [splitComma, joinComma]
  | cons c cs ih =>
    obtain ⟨ih1, ih2⟩ := ih
    simp only [splitComma]
    split
    · rename_i hc
      refine ⟨?_, ?_⟩
      · cases hs : splitComma cs with
        | nil => exact absurd hs (splitComma_ne cs)
        | cons w ws => rw [hs] at ih1; simp only [joinComma, List.nil_append]; rw [hc, ih1]
      · intro w hw
        rcases List.mem_cons.1 hw with rfl | hw
        · simp
        · exact ih2 w hw
    · rename_i hc
      cases hs : splitComma cs with
      | nil => exact absurd hs (splitComma_ne cs)
      | cons w ws =>
        rw [hs] at ih1 ih2
        refine ⟨?_, ?_⟩
        · cases ws with
          | nil => simpa [joinComma] using ih1
          | cons w' ws => simpa [joinComma] using ih1
        · intro x hx
          rcases List.mem_cons.1 hx with rfl | hx
          · have := ih2 w (List.mem_cons_self ..)
            simp only [List.mem_cons, not_or]
            exact ⟨fun h => hc h.symm, this⟩
          · exact ih2 x (List.mem_cons_of_mem _ hx)

example : splitComma (lit "in,,auth") = [lit "in", [], lit "auth"] ∧ joinComma [lit "in", [], lit "auth"] = lit "in,,auth" := by decide

/-- What a word does to a tag. -/
theorem addWord_eq (t : ATag) (w : Str) : addWord t w = if w ∈ apiWords then some { t with
    isIn := t.isIn || w = lit "in" || w = lit "both", isOut := t.isOut || w = lit "out" || w = lit "both",
    required := t.required || w = lit "required", auth := t.auth || w = lit "auth" } else none := by
  obtain ⟨n, a, i, o, r, u⟩ := t
  by_cases h1 : w = lit "in"
  · subst h1; rw [if_pos (by decide)]; unfold addWord; rw [if_pos rfl]
    simp [show lit "in" ≠ lit "both" by decide, show lit "in" ≠ lit "out" by decide, show lit "in" ≠ lit "required" by decide, show lit "in" ≠ lit "auth" by decide]
  by_cases h2 : w = lit "out"
  · subst h2; rw [if_pos (by decide)]; unfold addWord; rw [if_neg (by decide), if_pos rfl]
    simp [show lit "out" ≠ lit "both" by decide, show lit "out" ≠ lit "in" by decide, show lit "out" ≠ lit "required" by decide, show lit "out" ≠ lit "auth" by decide]
  by_cases h3 : w = lit "both"
  · subst h3; rw [if_pos (by decide)]; unfold addWord; rw [if_neg (by decide), if_neg (by decide), if_pos rfl]
    simp [show lit "both" ≠ lit "required" by decide, show lit "both" ≠ lit "auth" by decide]
  by_cases h4 : w = lit "required"
  · subst h4; rw [if_pos (by decide)]; unfold addWord; rw [if_neg (by decide), if_neg (by decide), if_neg (by decide), if_pos rfl]
    simp [show lit "required" ≠ lit "both" by decide, show lit "required" ≠ lit "in" by decide, show lit "required" ≠ lit "out" by decide,
      show lit "required" ≠ lit "auth" by decide]
  by_cases h5 : w = lit "auth"
  · subst h5; rw [if_pos (by decide)]; unfold addWord
    rw [if_neg (by decide), if_neg (by decide), if_neg (by decide), if_neg (by decide), if_pos rfl]
    simp [show lit "auth" ≠ lit "both" by decide, show lit "auth" ≠ lit "in" by decide, show lit "auth" ≠ lit "out" by decide,
      show lit "auth" ≠ lit "required" by decide]
  unfold addWord
  rw [if_neg h1, if_neg h2, if_neg h3, if_neg h4, if_neg h5]
  by_cases h6 : w = []
  · rw [if_pos h6, if_pos (by simp [apiWords, h6])]
    simp [h1, h2, h3, h4, h5]
  · rw [if_neg h6, if_neg]
    simp [apiWords, h1, h2, h3, h4, h5, h6]

theorem addWords_eq (t : ATag) (ws : List Str) : addWords t ws = if ∀ w ∈ ws, w ∈ apiWords then some { t with
    isIn := t.isIn || lit "in" ∈ ws || lit "both" ∈ ws, isOut := t.isOut || lit "out" ∈ ws || lit "both" ∈ ws,
    required := t.required || lit "required" ∈ ws, auth := t.auth || lit "auth" ∈ ws } else none := by
  induction ws generalizing t with
  | nil => simp [addWords]
  | cons w ws ih =>
    simp only [addWords, addWord_eq]
    by_cases hw : w ∈ apiWords
    · rw [if_pos hw]
      simp only [Option.bind_some, ih, List.mem_cons, forall_eq_or_imp, hw, true_and]
      by_cases hall : ∀ w ∈ ws, w ∈ apiWords
      · rw [if_pos hall, if_pos hall]
        simp only [Option.some.injEq, ATag.mk.injEq, true_and, and_true]
        have key : ∀ (a : Bool) (k : Str), (a || decide (w = k) || decide (k ∈ ws)) = (a || decide (k = w ∨ k ∈ ws)) := by
          intro a k
          by_cases h : w = k
          · simp [h]
          · simp [h, Ne.symm h]
        have key2 : ∀ (a : Bool) (k k' : Str), (a || decide (w = k) || decide (w = k') || decide (k ∈ ws) || decide (k' ∈ ws)) =
            (a || decide (k = w ∨ k ∈ ws) || decide (k' = w ∨ k' ∈ ws)) := by
          intro a k k'
          rw [← key, ← key]
          cases a <;> cases decide (w = k) <;> cases decide (w = k') <;> cases decide (k ∈ ws) <;> cases decide (k' ∈ ws) <;> rfl
        exact ⟨key _ _, key2 _ _ _, key2 _ _ _, key _ _⟩
      · rw [if_neg hall, if_neg hall]
    · rw [if_neg hw, if_neg]
      · rfl
      · intro h; exact hw (h w (List.mem_cons_self ..))

/-- A field's tag is accepted exactly if it has only known words and a `url` that can be parsed; then the words mean what they say. -/
theorem C53_words (U : Str → Option Str) (f : FieldInfo) :
    ((∃ tag, parseTags U f = some tag) ↔ GoodField U f) ∧
    ∀ tag, parseTags U f = some tag → tag.name = tagName f ∧ (tag.isIn = true ↔ IsIn f) ∧ (tag.isOut = true ↔ IsOut f) ∧ (tag.auth = true ↔ IsAuth f) ∧
      (tag.required = true ↔ IsRequired f) ∧ tag.url = if f.url = [] then none else U f.url := by
  unfold parseTags parseUrl GoodField IsIn IsOut IsAuth IsRequired
  simp only [addWords_eq]
  by_cases hall : ∀ w ∈ splitComma f.api, w ∈ apiWords
  · simp only [if_pos hall]
    by_cases hu : f.url = []
    · simp only [hu, if_true, Option.bind_some, Option.some.injEq]
      refine ⟨⟨fun _ => ⟨hall, .inl trivial⟩, fun _ => ⟨_, rfl⟩⟩, ?_⟩
      rintro tag rfl
      simp
    · simp only [if_neg hu]
      cases hp : U f.url with
      | none => simp [hu]
      | some u =>
        simp only [Option.map_some, Option.bind_some, Option.some.injEq]
        refine ⟨⟨fun _ => ⟨hall, .inr rfl⟩, fun _ => ⟨_, rfl⟩⟩, ?_⟩
        rintro tag rfl
        simp
  · simp only [if_neg hall]
    have hn : ∀ o : Option (Option Str), (o.bind fun _ => (none : Option ATag)) = none := by intro o; cases o <;> rfl
    simp only [hn]
    exact ⟨⟨(fun ⟨_, h⟩ => by cases h), fun h => absurd h.1 hall⟩, fun tag h => by cases h⟩

/-- A field with a name, a direction and a url, and one with a word that is not known. -/
example : ((parseTags some { name := lit "N", tag := lit "n,omitempty", api := lit "both,required", url := lit "/n" }).map fun t => (t.name, t.url)) = some (lit "n", some (lit "/n")) ∧
    ((parseTags some { name := lit "N", tag := lit "n,omitempty", api := lit "both,required", url := lit "/n" }).map fun t => (t.isIn, t.isOut, t.auth, t.required)) =
      some (true, true, false, true) ∧
    (parseTags some { name := lit "N", api := lit "inn" }).isNone = true := by decide

/-- Names come from the `enc` tag, or else from the `json` tag, up to a comma; an empty one is replaced by the field's name. -/
theorem C53_name (f : FieldInfo) (w rest : Str) (hw : ',' ∉ w) (hr : rest = [] ∨ rest.head? = some ',') :
    (f.enc = w ++ rest → f.enc ≠ [] → tagName f = if w = [] then f.name else w) ∧
    (f.enc = [] → f.tag = w ++ rest → tagName f = if w = [] then f.name else w) := by
  have hcut : (cutComma (w ++ rest)).1 = w := by
    induction w with
    | nil =>
      rcases hr with rfl | hr
      · rfl
      · cases rest with
        | nil => rfl
        | cons c r => simp only [List.head?_cons, Option.some.injEq] at hr; subst hr; simp [cutComma]
    | cons c w ih =>
      simp only [List.mem_cons, not_or] at hw
      simp only [List.cons_append, cutComma]
      rw [if_neg (Ne.symm hw.1)]
      simp only [ih hw.2]
  constructor
  · intro h hne
    unfold tagName
    simp only [if_pos hne]
    rw [h, hcut]
  · intro he h
    unfold tagName
    simp only [he, ne_eq, not_true, if_false]
    rw [h]
    by_cases hn : w ++ rest = []
    · simp only [hn, not_true, if_false, if_true]
      have : w = [] := (List.append_eq_nil_iff.1 hn).1
      rw [if_pos this]
    · rw [if_pos hn, hcut]

example : tagName { name := lit "N", tag := lit "x", enc := lit ",omitempty" } = lit "N" :=
  (C53_name { name := lit "N", tag := lit "x", enc := lit ",omitempty" } [] (lit ",omitempty") (by decide) (.inr rfl)).1 (by decide) (by decide)

example : tagName { name := lit "N", tag := lit "x,string" } = lit "x" :=
  (C53_name { name := lit "N", tag := lit "x,string" } (lit "x") (lit ",string") (by decide) (.inr rfl)).2 rfl rfl

variable {X : Ext} [DecidableEq X.F] [DecidableEq X.T]

theorem tagsOk_iff (U : Str → Option Str) (fs : Fields) : TagsOk U fs ↔ ∀ f ∈ fs.infos, GoodField U f :=
  ⟨fun h f hf => (C53_words U f).1.1 (h f hf), fun h f hf => (C53_words U f).1.2 (h f hf)⟩

theorem collect_auth_length (U : Str → Option Str) : ∀ (fs : Fields) (v : FVals X fs) (i : Nat), TagsOk U fs →
    (collect U (fun t _ => t.auth) fs v i).length = (fs.infos.filter fun f => lit "auth" ∈ splitComma f.api).length
  | .nil, _, _, _ => rfl
  | .cons f t fs, (v, vs), i, hok => by
    obtain ⟨tag, ht⟩ := hok f (List.mem_cons_self ..)
    have ih := collect_auth_length U fs vs (i + 1) (fun g hg => hok g (List.mem_cons_of_mem _ hg))
    have ha := ((C53_words U f).2 tag ht).2.2.2.1
    unfold IsAuth at ha
    simp only [collect, ht, Fields.infos, List.length_append, ih]
    by_cases h : lit "auth" ∈ splitComma f.api
    · rw [if_pos (ha.2 h), List.filter_cons_of_pos (by simp [h])]; simp [Nat.add_comm]
    · rw [if_neg (fun h' => h (ha.1 h')), List.filter_cons_of_neg (by simp [h])]; simp

/-- `NewHandler` succeeds exactly on pointers to structs (nil ones included) whose fields all have good tags, with at most one `auth` among them. -/
theorem C53_valid (U : Str → Option Str) (p : Template X) :
    (newHandler U p).isSome = true ↔ ∃ fs v, p = .ptr (.struct fs) v ∧ (∀ f ∈ fs.infos, GoodField U f) ∧
      (fs.infos.filter fun f => lit "auth" ∈ splitComma f.api).length ≤ 1 := by
  have other : ∀ (t : Ty) (v : Option (Val X t)), (∀ fs, t ≠ .struct fs) → newHandler U (.ptr t v) = none := by
    intro t v h
    cases t <;> first | rfl | exact absurd rfl (h _)
  cases p with
  | other =>
    constructor
    · intro h; simp [newHandler] at h
    · rintro ⟨fs, v, h, _⟩; cases h
  | ptr t v =>
    by_cases hs : ∃ fs, t = .struct fs
    · obtain ⟨fs, rfl⟩ := hs
      refine (scan_isSome U fs (content fs v) 0 {}).trans ?_
      simp only [Option.toList_none, List.nil_append]
      constructor
      · rintro ⟨h1, h2⟩
        rw [collect_auth_length U fs _ 0 h1] at h2
        exact ⟨fs, v, rfl, (tagsOk_iff U fs).1 h1, h2⟩
      · rintro ⟨fs', v', h, h1, h2⟩
        injection h with h3 h4
        injection h3 with h3
        subst h3
        have h1 := (tagsOk_iff U fs).2 h1
        exact ⟨h1, by rw [collect_auth_length U fs _ 0 h1]; exact h2⟩
    · rw [other t v (fun fs h => hs ⟨fs, h⟩)]
      constructor
      · intro h; cases h
      · rintro ⟨fs, v', h, _⟩
        injection h with h3 h4
        exact absurd ⟨fs, h3⟩ hs

/-- Two fields that say who is calling are one too many. -/
example : (newHandler (X := X) some (.ptr (.struct (.cons { name := lit "A", api := lit "auth" } .string (.cons { name := lit "B", api := lit "in" } .string .nil))) none)).isSome = true ∧
    (newHandler (X := X) some (.ptr (.struct (.cons { name := lit "A", api := lit "auth" } .string (.cons { name := lit "B", api := lit "auth,in" } .string .nil))) none)).isSome = false := by
  constructor
  · rw [C53_valid]; exact ⟨_, _, rfl, by simp only [Fields.infos, GoodField]; decide, by decide⟩
  · rw [← Bool.not_eq_true, C53_valid]
    rintro ⟨fs, v, h, -, h2⟩
    injection h with h h'
    injection h with h
    subst h
    exact absurd h2 (by decide)

end Verif.Api

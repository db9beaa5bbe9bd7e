import Verif.Enc.GoodLemmas
/-!
# Typed marshalling (properties C40-C46, C48)
-/
set_option autoImplicit false
namespace Verif.Enc
open Verif.Strconv
variable {X : Ext}

/-! ### C40, C41: round trips -/

/-- C40: every value that should survive is marshalled, and comes back when unmarshalled into a fresh variable, whatever the order in which maps are
visited and whatever the callback. -/
theorem C40_round_trip (hX : Laws X) (O O' : Order) (H : Handler X) (t : Ty) (v : Val X t) (h : Faithful false t v) :
    ∃ n, marshal O t v = .ok n ∧ unmarshal H O' t n (zero X t) = .done v :=
  round hX false O O' H t v h

/-- C41: the same across JSON text, if the marshalled value is nested at most 10000 deep. -/
theorem C41_round_trip (hX : Laws X) (O O' : Order) (H : Handler X) (t : Ty) (v : Val X t) (h : Faithful true t v) :
    ∃ n, marshal O t v = .ok n ∧ (n.depth ≤ maxDepth → ∃ s, marshalJSON O t v = .ok s ∧ unmarshalJSON H O' t s (zero X t) = .done v) := by
  obtain ⟨n, hm, hu⟩ := round hX true O O' H t v h
  refine ⟨n, hm, fun hd => ?_⟩
  obtain ⟨hwf, he⟩ := marshal_good hX O t v n h hm
  have henc : encode n = .ok n.text := by unfold encode; rw [if_pos (he hd)]
  refine ⟨n.text, by simp only [marshalJSON, hm, Res.bind, henc], ?_⟩
  unfold unmarshalJSON
  rw [C39_round_trip hX n hwf n.text henc hd]
  exact hu

/-! ### C42: only what the input mentions -/

theorem onlyMentioned_refl (keys : List Str) : ∀ (fs : Fields) (v : FVals X fs), OnlyMentioned keys fs v v
  | .nil, _ => trivial
  | .cons _ _ fs, (_, vs) => ⟨.inl rfl, onlyMentioned_refl keys fs vs⟩

theorem lookup_some_mem {α : Type} (k : Str) (m : List (Str × α)) (v : α) (h : lookupKey k m = some v) : k ∈ m.map (·.1) := by
  induction m with
  | nil => cases h
  | cons e m ih =>
    obtain ⟨k', v'⟩ := e
    simp only [lookupKey] at h
    split at h
    · rename_i hk; simp [hk]
    · exact List.mem_cons_of_mem _ (ih h)

theorem uFields_mentioned (H : Handler X) (O : Order) (m : List (Str × Node X)) : ∀ (fs : Fields) (old : FVals X fs),
    OnlyMentioned (m.map (·.1)) fs old (uFields H O fs m old).val
  | .nil, _ => trivial
  | .cons f t fs, (v, vs) => by
    have ih := uFields_mentioned H O m fs vs
    simp only [uFields]
    split
    · rename_i hx
      cases ht : parseTag f with
      | none => exact onlyMentioned_refl _ (.cons f t fs) (v, vs)
      | some tag =>
        simp only
        cases hl : lookupKey tag.json m with
        | none => exact ⟨.inl rfl, ih⟩
        | some n =>
          have hn : ∃ k ∈ m.map (·.1), Named f k := ⟨tag.json, lookup_some_mem _ m n hl, hx, tag, ht, rfl⟩
          simp only
          cases hs : (unmarshal H O t n v).st with
          | ok => exact ⟨.inr hn, ih⟩
          | err => exact ⟨.inr hn, onlyMentioned_refl _ fs vs⟩
          | panic => exact ⟨.inr hn, onlyMentioned_refl _ fs vs⟩
    · exact ⟨.inl rfl, ih⟩

theorem uStruct_val (H : Handler X) (O : Order) (fs : Fields) (m : List (Str × Node X)) (r : Out X (FVals X fs)) : (uStruct H O fs m r).val = r.val := by
  unfold uStruct; cases r.st <;> rfl

/-- C42: unmarshalling an object into a struct, whether it succeeds, fails or panics, changes only exported fields whose JSON name is a key. -/
theorem C42_only_mentioned (H : Handler X) (O : Order) (fs : Fields) (m : List (Str × Node X)) (old : FVals X fs) :
    OnlyMentioned (m.map (·.1)) fs old (unmarshal H O (.struct fs) (.map m) old).val := by
  rw [un_struct_map, uStruct_val]
  exact uFields_mentioned H O m fs old

theorem seen_named : ∀ (fs : Fields) (k : Str), k ∈ seenNames fs ↔ ∃ f ∈ fs.infos, Named f k
  | .nil, k => by simp [seenNames, Fields.infos]
  | .cons f t fs, k => by
    have ih := seen_named fs k
    simp only [Fields.infos, List.mem_cons, exists_eq_or_imp]
    rw [← ih]
    simp only [seenNames, Named]
    cases hx : f.exported with
    | false => simp
    | true => cases ht : parseTag f with
      | none => simp
      | some tag =>
        simp only [if_true, List.mem_append, List.mem_singleton, true_and, Option.some.injEq, exists_eq_left']
        exact ⟨fun h => h.imp Eq.symm id, fun h => h.imp Eq.symm id⟩

theorem uFields_lookup (H : Handler X) (O : Order) (m m' : List (Str × Node X)) : ∀ (fs : Fields) (old : FVals X fs),
    (∀ k ∈ seenNames fs, lookupKey k m = lookupKey k m') → uFields H O fs m old = uFields H O fs m' old
  | .nil, _, _ => rfl
  | .cons f t fs, (v, vs), h => by
    have ih := uFields_lookup H O m m' fs vs (fun k hk => h k (by
      simp only [seenNames]
      split
      · exact List.mem_append.2 (.inr hk)
      · exact hk))
    simp only [uFields, ih]
    split
    · rename_i hx
      cases ht : parseTag f with
      | none => rfl
      | some tag => simp only; rw [h tag.json (by simp [seenNames, hx, ht])]
    · rfl

/-- C42: without a callback, keys that name no field make no difference: two objects that agree on the names of the fields have the same effect. -/
theorem C42_unknown_ignored (H : Handler X) (hH : H.unhandled = none) (O : Order) (fs : Fields) (m m' : List (Str × Node X)) (old : FVals X fs)
    (h : ∀ k, (∃ f ∈ fs.infos, Named f k) → lookupKey k m = lookupKey k m') :
    unmarshal H O (.struct fs) (.map m) old = unmarshal H O (.struct fs) (.map m') old := by
  rw [un_struct_map, un_struct_map, uFields_lookup H O m m' fs old (fun k hk => h k ((seen_named fs k).1 hk))]
  unfold uStruct report
  rw [hH]

theorem reportAll_ok (cb : Str → Node X → Bool) (hc : ∀ k n, cb k n = false) (l : List (Str × Node X)) : reportAll cb l = (.ok, l) := by
  induction l with
  | nil => rfl
  | cons e l ih => obtain ⟨k, n⟩ := e; simp [reportAll, hc, ih]

open Classical in
/-- C42: with a callback that accepts everything, once the fields are set the unknown keys are reported, each exactly once, with their values, after
whatever the fields themselves reported. -/
theorem C42_reported (H : Handler X) (cb : Str → Node X → Bool) (hH : H.unhandled = some cb) (hc : ∀ k n, cb k n = false) (O : Order) (fs : Fields)
    (m : List (Str × Node X)) (old : FVals X fs) (hok : (uFields H O fs m old).st = .ok) :
    ∃ reported, (unmarshal H O (.struct fs) (.map m) old).calls = (uFields H O fs m old).calls ++ reported ∧
      reported.Perm (m.filter fun e => ¬ ∃ f ∈ fs.infos, Named f e.1) := by
  rw [un_struct_map]
  refine ⟨unknown O fs m, ?_, ?_⟩
  · unfold uStruct report
    rw [hok, hH]
    simp only
    rw [reportAll_ok cb hc]
  · unfold unknown
    refine ((O.isPerm m).filter _).trans ?_
    apply List.Perm.of_eq
    apply List.filter_congr
    intro e _
    rw [Bool.eq_iff_iff]
    simp [← seen_named]

theorem reportAll_calls (cb : Str → Node X → Bool) (l : List (Str × Node X)) :
    ∃ rest, l = (reportAll cb l).2 ++ rest ∧ ((reportAll cb l).1 = .ok → rest = []) ∧ ((reportAll cb l).1 = .err ∨ (reportAll cb l).1 = .ok) := by
  induction l with
  | nil => exact ⟨[], rfl, fun _ => rfl, .inr rfl⟩
  | cons e l ih =>
    obtain ⟨k, n⟩ := e
    obtain ⟨rest, h1, h2, h3⟩ := ih
    simp only [reportAll]
    split
    · exact ⟨l, rfl, fun h => by simp at h, .inl rfl⟩
    · exact ⟨rest, by simp only [List.cons_append]; rw [← h1], h2, h3⟩

/-! ### C43: `json:"-"` -/

theorem marshalFields_same (O : Order) : ∀ (fs : Fields) (v w : FVals X fs), SameWritten fs v w → marshalFields O fs v = marshalFields O fs w
  | .nil, _, _, _ => rfl
  | .cons f t fs, (v, vs), (w, ws), h => by
    obtain ⟨h1, h2⟩ := h
    have ih := marshalFields_same O fs vs ws h2
    simp only [marshalFields, ih]
    split
    · rename_i hx
      by_cases htag : f.tag = lit "-"
      · have : parseTag f = some ⟨f.name, [], false, true⟩ := by unfold parseTag; rw [if_pos htag]
        rw [this]; simp
      · rw [h1 hx htag]
    · rfl

/-- C43: what is written does not depend on the fields tagged `json:"-"` (or on unexported ones): values that differ only there give the same node. -/
theorem C43_never_written (O : Order) (fs : Fields) (v w : FVals X fs) (h : SameWritten fs v w) :
    marshal O (.struct fs) (v : Val X (.struct fs)) = marshal O (.struct fs) (w : Val X (.struct fs)) := by
  simp only [marshal]
  exact congrArg (fun r => Res.bind r _) (marshalFields_same O fs v w h)

theorem sameSkipped_refl : ∀ (fs : Fields) (v : FVals X fs), SameSkipped fs v v
  | .nil, _ => trivial
  | .cons _ _ fs, (_, vs) => ⟨fun _ => rfl, sameSkipped_refl fs vs⟩

theorem uFields_skipped (H : Handler X) (O : Order) (m : List (Str × Node X)) (h0 : lookupKey [] m = none) : ∀ (fs : Fields) (old : FVals X fs),
    SameSkipped fs old (uFields H O fs m old).val
  | .nil, _ => trivial
  | .cons f t fs, (v, vs) => by
    have ih := uFields_skipped H O m h0 fs vs
    simp only [uFields]
    split
    · cases ht : parseTag f with
      | none => exact sameSkipped_refl (.cons f t fs) (v, vs)
      | some tag =>
        simp only
        cases hl : lookupKey tag.json m with
        | none => exact ⟨fun _ => rfl, ih⟩
        | some n =>
          have hno : ¬ f.tag = lit "-" := by
            intro hd
            have : parseTag f = some ⟨f.name, [], false, true⟩ := by unfold parseTag; rw [if_pos hd]
            rw [this] at ht
            injection ht with ht; subst ht
            rw [h0] at hl; cases hl
          simp only
          cases hs : (unmarshal H O t n v).st with
          | ok => exact ⟨fun h => absurd h hno, ih⟩
          | err => exact ⟨fun h => absurd h hno, sameSkipped_refl fs vs⟩
          | panic => exact ⟨fun h => absurd h hno, sameSkipped_refl fs vs⟩
    · exact ⟨fun _ => rfl, ih⟩

/-- C43: unmarshalling never changes a field tagged `json:"-"`, as long as the object has no key `""`. -/
theorem C43_never_read_partial (H : Handler X) (O : Order) (fs : Fields) (m : List (Str × Node X)) (old : FVals X fs) (h0 : lookupKey [] m = none) :
    SameSkipped fs old (unmarshal H O (.struct fs) (.map m) old).val := by
  rw [un_struct_map, uStruct_val]
  exact uFields_skipped H O m h0 fs old

/-- A struct with one field, tagged `json:"-"`. -/
def secretTy : Fields := .cons { name := lit "Secret", tag := lit "-" } .string .nil

/-- C43 is violated: the JSON text `{"":"x"}` sets a field tagged `json:"-"`. -/
theorem C43_violated (H : Handler X) (O : Order) :
    ¬ SameSkipped (X := X) secretTy (lit "old", ()) (unmarshal H O (.struct secretTy) (.map [([], .str (lit "x"))]) (lit "old", ())).val := by
  have : (unmarshal H O (.struct secretTy) (.map [([], .str (lit "x"))]) (lit "old", ()) : Out X (FVals X secretTy)).val = (lit "x", ()) := by
    exact (congrArg Out.val (un_struct_map H O secretTy _ _)).trans (uStruct_val H O secretTy _ _)
  rw [this]
  intro h
  have := h.1 rfl
  exact absurd (show lit "old" = lit "x" from this) (by decide)

/-! ### C44: `omitempty` -/

/-- How a `json` tag is to be read: the text before the first comma is the name, the field's own name if there is none; the only option is
`omitempty`; a tag that is just `-` excludes the field. -/
inductive TagMeans (f : FieldInfo) : (json : Str) → (omitEmpty skip : Bool) → Prop where
  | none : f.tag = [] → TagMeans f f.name false false
  | dash : f.tag = lit "-" → TagMeans f [] false true
  | named (a : Str) : ',' ∉ a → a ≠ [] → a ≠ lit "-" → f.tag = a → TagMeans f a false false
  | namedComma (a : Str) : ',' ∉ a → a ≠ [] → f.tag = a ++ lit "," → TagMeans f a false false
  | comma : f.tag = lit "," → TagMeans f f.name false false
  | omitted (a : Str) : ',' ∉ a → a ≠ [] → f.tag = a ++ lit ",omitempty" → TagMeans f a true false
  | onlyOmitted : f.tag = lit ",omitempty" → TagMeans f f.name true false

theorem cutComma_none (a : Str) (h : ',' ∉ a) : cutComma a = (a, []) := by
  induction a with
  | nil => rfl
  | cons c a ih =>
    simp only [List.mem_cons, not_or] at h
    simp [cutComma, Ne.symm h.1, ih h.2]

theorem cutComma_some (a r : Str) (h : ',' ∉ a) : cutComma (a ++ ',' :: r) = (a, r) := by
  induction a with
  | nil => simp [cutComma]
  | cons c a ih =>
    simp only [List.mem_cons, not_or] at h
    simp [cutComma, Ne.symm h.1, ih h.2]

theorem cutComma_cases (s : Str) : ',' ∉ (cutComma s).1 ∧ ((s = (cutComma s).1 ∧ (cutComma s).2 = []) ∨ s = (cutComma s).1 ++ ',' :: (cutComma s).2) := by
  induction s with
  | nil => simp [cutComma]
  | cons c s ih =>
    unfold cutComma
    split
    · rename_i h; subst h; simp
    · rename_i h
      obtain ⟨h1, h2⟩ := ih
      refine ⟨by simp [Ne.symm h, h1], ?_⟩
      rcases h2 with ⟨h2, h3⟩ | h2
      · left; exact ⟨by simpa using h2, h3⟩
      · right; simpa using h2

/-- C44: tags are read like that: the name and option of a field are those its tag stands for, and a tag that stands for nothing (an unknown
option) is refused, by a panic. -/
theorem C44_tags (f : FieldInfo) :
    (∀ json om skip, parseTag f = some ⟨f.name, json, om, skip⟩ ↔ TagMeans f json om skip) ∧
    (parseTag f = none ↔ ¬ ∃ json om skip, TagMeans f json om skip) := by
  have fwd : ∀ tag, parseTag f = some tag → tag.name = f.name ∧ TagMeans f tag.json tag.omitEmpty tag.skip := by
    intro tag h
    unfold parseTag at h
    split at h
    · rename_i hd; injection h with h; subst h; exact ⟨rfl, .dash hd⟩
    · rename_i hd
      obtain ⟨h1, h2⟩ := cutComma_cases f.tag
      simp only at h
      generalize hp : cutComma f.tag = p at h h1 h2
      obtain ⟨a, r⟩ := p
      simp only at h h1 h2
      split at h
      · rename_i ho
        injection h with h; subst h
        refine ⟨rfl, ?_⟩
        rcases h2 with ⟨_, h2⟩ | h2
        · rw [h2] at ho; exact absurd ho (by decide)
        · rw [ho] at h2
          by_cases ha : a = []
          · rw [if_pos ha]; subst ha; exact .onlyOmitted h2
          · rw [if_neg ha]; exact .omitted a h1 ha h2
      · split at h
        · rename_i hr
          injection h with h; subst h
          refine ⟨rfl, ?_⟩
          by_cases ha : a = []
          · rw [if_pos ha]
            subst ha
            rcases h2 with ⟨h2, _⟩ | h2
            · exact .none h2
            · rw [hr] at h2; exact .comma h2
          · rw [if_neg ha]
            rcases h2 with ⟨h2, _⟩ | h2
            · exact .named a h1 ha (fun e => hd (h2.trans e)) h2
            · rw [hr] at h2; exact .namedComma a h1 ha h2
        · cases h
  have bwd : ∀ json om skip, TagMeans f json om skip → parseTag f = some ⟨f.name, json, om, skip⟩ := by
    intro json om skip h
    have tail : ∀ a r : Str, f.tag = a ++ ',' :: r → ',' ∉ a → f.tag ≠ lit "-" ∧ cutComma f.tag = (a, r) := by
      intro a r h1 h2
      refine ⟨fun e => ?_, by rw [h1, cutComma_some a r h2]⟩
      rw [h1] at e
      have : ',' ∈ lit "-" := by rw [← e]; simp
      exact absurd this (by decide)
    have ne_lit : ([] : Str) ≠ lit "omitempty" := by decide
    unfold parseTag
    cases h with
    | none h => simp [h, lit, cutComma]
    | dash h => simp [h]
    | named _ h1 h2 h3 h4 => subst h4; simp [h2, h3, cutComma_none _ h1, ne_lit]
    | namedComma _ h1 h2 h3 => obtain ⟨h4, h5⟩ := tail json [] h3 h1; simp [h4, h5, h2, ne_lit]
    | comma h => obtain ⟨h4, h5⟩ := tail [] [] h (by simp); simp [h4, h5, ne_lit]
    | omitted _ h1 h2 h3 => obtain ⟨h4, h5⟩ := tail json (lit "omitempty") h3 h1; simp [h4, h5, h2]
    | onlyOmitted h => obtain ⟨h4, h5⟩ := tail [] (lit "omitempty") h (by simp); simp [h4, h5]
  refine ⟨fun json om skip => ⟨fun h => (fwd _ h).2, bwd json om skip⟩, ?_⟩
  constructor
  · rintro h ⟨json, om, skip, hm⟩
    rw [bwd _ _ _ hm] at h
    cases h
  · intro h
    cases hp : parseTag f with
    | none => rfl
    | some tag => exact absurd ⟨_, _, _, (fwd tag hp).2⟩ h

example : TagMeans { name := lit "ID", tag := lit "id,omitempty" } (lit "id") true false :=
  .omitted (lit "id") (by decide) (by decide) (by decide)
example : parseTag { name := lit "ID", tag := lit "id,string" } = none := by decide

theorem emptyNode_iff (n : Node X) : emptyNode n = true ↔ Droppable n := by
  unfold Droppable
  cases n <;> simp [emptyNode]

open Classical in
/-- The pair a field should be written as, if any. -/
noncomputable def written (r : FieldInfo × Res (Node X)) : Option ((Str × Str) × Node X) :=
  match r.1.exported, parseTag r.1, r.2 with
  | true, some tag, .ok n => if tag.skip = true ∨ (tag.omitEmpty = true ∧ Droppable n) then none else some ((tag.name, tag.json), n)
  | _, _, _ => none

theorem marshalFields_rows (O : Order) : ∀ (fs : Fields) (v : FVals X fs) (l : List ((Str × Str) × Node X)), marshalFields O fs v = .ok l →
    l = (rows O fs v).filterMap written
  | .nil, _, l, h => by simp only [marshalFields] at h; injection h with h; subst h; rfl
  | .cons f t fs, (v, vs), l, h => by
    simp only [marshalFields] at h
    simp only [rows, List.filterMap_cons]
    cases hx : f.exported with
    | false =>
      rw [hx] at h
      have ih := marshalFields_rows O fs vs l h
      simp only [written, hx]; exact ih
    | true =>
      rw [hx] at h
      cases ht : parseTag f with
      | none => rw [ht] at h; cases h
      | some tag =>
        rw [ht] at h
        simp only [if_true] at h
        cases hsk : tag.skip with
        | true =>
          rw [hsk] at h
          have ih := marshalFields_rows O fs vs l h
          cases hm : marshal O t v <;> simp only [written, hx, ht, hsk, true_or, if_true] <;> exact ih
        | false =>
          rw [hsk] at h
          simp only [Bool.false_eq_true, if_false] at h
          obtain ⟨n, hn, h⟩ := bind_ok h
          obtain ⟨l', hl', h⟩ := bind_ok h
          injection h with h; subst h
          have ih := marshalFields_rows O fs vs l' hl'
          rw [hn]
          simp only [written, hx, ht, hsk]
          have hiff : ((tag.omitEmpty && emptyNode n) = true) ↔ (tag.omitEmpty = true ∧ Droppable n) := by rw [Bool.and_eq_true, emptyNode_iff]
          by_cases hc : tag.omitEmpty = true ∧ Droppable n
          · rw [if_pos (hiff.2 hc), if_pos (.inr hc)]; exact ih
          · rw [if_neg (fun h => hc (hiff.1 h)), if_neg (fun h => hc (h.resolve_left (by rw [hsk]; simp)))]; simp only; rw [← ih]

/-- C44: a marshalled struct has, in declaration order, exactly the exported fields that are not tagged `json:"-"`, except those with `omitempty` whose
node is nil, an empty string, zero or empty digits. -/
theorem C44_written (O : Order) (fs : Fields) (v : FVals X fs) (n : Node X) (h : marshal O (.struct fs) (v : Val X (.struct fs)) = .ok n) :
    n = .pairs ((rows O fs v).filterMap written) := by
  simp only [marshal] at h
  obtain ⟨l, hl, h⟩ := bind_ok h
  injection h with h; subst h
  rw [marshalFields_rows O fs v l hl]

theorem rows_infos (O : Order) : ∀ (fs : Fields) (v : FVals X fs), (rows O fs v).map (·.1) = fs.infos
  | .nil, _ => rfl
  | .cons f t fs, (v, vs) => by simp [rows, Fields.infos, rows_infos O fs vs]

theorem rows_ok (O : Order) : ∀ (fs : Fields) (v : FVals X fs) (l : List ((Str × Str) × Node X)), marshalFields O fs v = .ok l →
    ∀ r ∈ rows O fs v, r.1.exported = true → ∃ tag, parseTag r.1 = some tag ∧ (tag.skip = false → ∃ n, r.2 = .ok n)
  | .nil, _, _, _ => by simp [rows]
  | .cons f t fs, (v, vs), l, h => by
    intro r hr hx
    simp only [marshalFields] at h
    simp only [rows, List.mem_cons] at hr
    rcases hr with rfl | hr
    · rw [hx] at h
      cases ht : parseTag f with
      | none => rw [ht] at h; cases h
      | some tag =>
        refine ⟨tag, rfl, fun hsk => ?_⟩
        rw [ht] at h
        simp only [hsk, if_true, Bool.false_eq_true, if_false] at h
        obtain ⟨n, hn, _⟩ := bind_ok h
        exact ⟨n, hn⟩
    · split at h
      · split at h
        · cases h
        · split at h
          · exact rows_ok O fs vs l h r hr hx
          · obtain ⟨n, hn, h⟩ := bind_ok h
            obtain ⟨l', hl', _⟩ := bind_ok h
            exact rows_ok O fs vs l' hl' r hr hx
      · exact rows_ok O fs vs l h r hr hx

theorem filterMap_congr {α β : Type} {f g : α → Option β} {l : List α} (h : ∀ x ∈ l, f x = g x) : l.filterMap f = l.filterMap g := by
  induction l with
  | nil => rfl
  | cons a l ih =>
    simp only [List.filterMap_cons, h a List.mem_cons_self, ih (fun x hx => h x (List.mem_cons_of_mem _ hx))]

/-- The names a field is written with when nothing is omitted. -/
def alwaysNames (f : FieldInfo) : Option (Str × Str) :=
  match f.exported, parseTag f with
  | true, some tag => if tag.skip then none else some (tag.name, tag.json)
  | _, _ => none

/-- C44: without `omitempty` every exported field that is not tagged `json:"-"` is present, in declaration order. -/
theorem C44_all_present (O : Order) (fs : Fields) (v : FVals X fs) (n : Node X) (h : marshal O (.struct fs) (v : Val X (.struct fs)) = .ok n)
    (ho : ∀ f ∈ fs.infos, ∀ tag, parseTag f = some tag → tag.omitEmpty = false) :
    ∃ l, n = .pairs l ∧ l.map (·.1) = fs.infos.filterMap alwaysNames := by
  refine ⟨_, C44_written O fs v n h, ?_⟩
  simp only [marshal] at h
  obtain ⟨l, hl, _⟩ := bind_ok h
  have hrows := rows_ok O fs v l hl
  rw [← rows_infos O fs v] at ho ⊢
  revert ho hrows
  generalize rows O fs v = rs
  intro ho hrows
  rw [List.map_filterMap, List.filterMap_map]
  apply filterMap_congr
  intro r hr
  obtain ⟨f, x⟩ := r
  have ho := ho f (List.mem_map.2 ⟨_, hr, rfl⟩)
  have hrows := hrows _ hr
  simp only [written, Function.comp, alwaysNames]
  simp only at hrows
  cases hx : f.exported with
  | false => rfl
  | true =>
    obtain ⟨tag, ht, hn⟩ := hrows hx
    rw [ht]
    cases hsk : tag.skip with
    | true => cases x <;> simp [hsk]
    | false =>
      obtain ⟨n, rfl⟩ := hn hsk
      simp [hsk, ho tag ht]

/-! ### C45, C46: integers -/

/-- C45: signed integers of every width survive, with and without JSON. -/
theorem C45_int (hX : Laws X) (J : Bool) (O O' : Order) (H : Handler X) (w : Width) (v : BitVec w.bits) :
    ∃ n, marshal (X := X) O (.int w) v = .ok n ∧ unmarshal H O' (.int w) (wire J n) (zero X (.int w)) = .done v :=
  round hX J O O' H (.int w) v trivial

/-- C45: unsigned integers below 2^63 survive, with and without JSON. -/
theorem C45_uint_partial (hX : Laws X) (J : Bool) (O O' : Order) (H : Handler X) (w : Width) (v : BitVec w.bits) (h : v.toNat < 2 ^ 63) :
    ∃ n, marshal (X := X) O (.uint w) v = .ok n ∧ unmarshal H O' (.uint w) (wire J n) (zero X (.uint w)) = .done v :=
  round hX J O O' H (.uint w) v h

/-- C45: what is stored in a signed integer is the integer of the node, modulo 2^width. -/
theorem C45_wrap (H : Handler X) (O : Order) (w : Width) (old : BitVec w.bits) (i : Int) (lo : -2 ^ 63 ≤ i) (hi : i < 2 ^ 63) :
    unmarshal (X := X) H O (.int w) (.digits (fmtInt i)) old = .done (BitVec.ofInt w.bits i : BitVec w.bits) := by
  apply un_int
  show parseInt (trimDecimal (fmtInt i)) = some i
  rw [trimDecimal_fmtInt, parseInt_fmtInt i lo hi]

/-- C45: integers in the range of the target are stored unchanged. -/
theorem C45_in_range_partial (H : Handler X) (O : Order) (w : Width) (old : BitVec w.bits) (i : Int) (lo : -2 ^ (w.bits - 1) ≤ i) (hi : i < 2 ^ (w.bits - 1)) :
    ∃ v : BitVec w.bits, unmarshal (X := X) H O (.int w) (.digits (fmtInt i)) old = .done v ∧ v.toInt = i := by
  refine ⟨_, C45_wrap H O w old i ?_ ?_, ?_⟩
  · cases w <;> simp [Width.bits] at lo hi <;> omega
  · cases w <;> simp [Width.bits] at lo hi <;> omega
  · rw [BitVec.toInt_ofInt, Int.bmod_eq_of_le] <;> cases w <;> simp [Width.bits] at lo hi ⊢ <;> omega

/-- C45 is violated: the number 300 is stored in an `int8` as 44, without an error. -/
theorem C45_truncation_violated (H : Handler X) (O : Order) (old : BitVec 8) :
    unmarshal (X := X) H O (.int .w8) (.digits (fmtInt 300)) old = .done (44#8 : BitVec 8) :=
  C45_wrap H O .w8 old 300 (by decide) (by decide)

/-- C45 is violated: every `uint64` from 2^63 on is written to JSON as a negative number, which can not be read back. -/
theorem C45_uint64_violated (hX : Laws X) (O O' : Order) (H : Handler X) (v : BitVec 64) (h : 2 ^ 63 ≤ v.toNat) :
    ∃ s, marshalJSON (X := X) O (.uint .w64) v = .ok s ∧ s = fmtInt ((v.toNat : Int) - 2 ^ 64) ∧ (unmarshalJSON H O' (.uint .w64) s (zero X _)).st = .err := by
  have hv : (BitVec.ofNat 64 v.toNat).toInt = (v.toNat : Int) - 2 ^ 64 := by
    rw [BitVec.ofNat_toNat, BitVec.setWidth_eq, BitVec.toInt_eq_toNat_cond]; split <;> omega
  have hm : marshal (X := X) O (.uint .w64) v = .ok (.int ((v.toNat : Int) - 2 ^ 64)) := by rw [← hv]; rfl
  refine ⟨_, ?_, rfl, ?_⟩
  · simp only [marshalJSON, hm, Res.bind, encode, Node.encodable, if_true, Node.text]
  · have hlt := v.isLt
    have hdec := C39_round_trip hX (.int ((v.toNat : Int) - 2 ^ 64)) trivial _ rfl (Nat.zero_le _)
    unfold unmarshalJSON
    rw [show (Node.int ((v.toNat : Int) - 2 ^ 64) : Node X).text = fmtInt ((v.toNat : Int) - 2 ^ 64) from rfl] at hdec
    rw [hdec]
    have hp : (Node.digits (fmtInt ((v.toNat : Int) - 2 ^ 64)) : Node X).uint64 = none := by
      simp only [Node.uint64]
      rw [trimDecimal_fmtInt]
      unfold fmtInt
      rw [if_pos (by omega)]
      rfl
    show (numOut (α := BitVec 64) (.digits (fmtInt ((v.toNat : Int) - 2 ^ 64))) ((Node.uint64 (.digits (fmtInt ((v.toNat : Int) - 2 ^ 64)) : Node X)).map (BitVec.ofInt 64)) (zero X (.uint .w64)) 0).st = _
    rw [hp]; rfl

/-- C46: digits without an exponent, positive or negative, with or without a fraction, convert to their integer part, toward zero, or fail when it is
out of range. -/
theorem C46_integer_part (neg : Bool) (k : Nat) (frac : Str) (hf : frac = [] ∨ ∃ r, frac = '.' :: r) :
    (Node.digits ((if neg then ['-'] else []) ++ fmtNat k ++ frac) : Node X).int64 =
      (let i : Int := if neg then -(k : Int) else (k : Int); if -2 ^ 63 ≤ i ∧ i < 2 ^ 63 then some i else none) := by
  have htrim : trimDecimal ((if neg then ['-'] else []) ++ fmtNat k ++ frac) = (if neg then ['-'] else []) ++ fmtNat k := by
    have hall : ∀ c ∈ (if neg then ['-'] else []) ++ fmtNat k, c ≠ '.' := by
      intro c hc
      rcases List.mem_append.1 hc with hc | hc
      · cases neg
        · simp at hc
        · simp at hc; subst hc; decide
      · have := fmtNat_digits k c hc
        rintro rfl
        revert this; decide
    have key : ∀ (a b : Str), (∀ c ∈ a, c ≠ '.') → trimDecimal (a ++ b) = a ++ trimDecimal b := by
      intro a b h
      induction a with
      | nil => rfl
      | cons c a ih =>
        have := h c List.mem_cons_self
        have ih := ih (fun c hc => h c (List.mem_cons_of_mem _ hc))
        simp only [trimDecimal, List.cons_append] at ih ⊢
        rw [List.takeWhile_cons_of_pos (by simpa using this), ih]
    rw [key _ _ hall]
    rcases hf with rfl | ⟨r, rfl⟩
    · simp [trimDecimal]
    · simp [trimDecimal]
  simp only [Node.int64]
  rw [htrim]
  cases neg with
  | true =>
    simp only [if_true, List.cons_append, List.nil_append, parseInt, parseNat_fmtNat]
    by_cases h : k ≤ 2 ^ 63
    · rw [if_pos h, if_pos (by omega)]
    · rw [if_neg h, if_neg (by omega)]
  | false =>
    simp only [Bool.false_eq_true, if_false, List.nil_append]
    obtain ⟨c, cs, hc, _⟩ := fmtNat_head k
    have hns := fmtNat_no_sign k
    unfold parseInt
    split
    · rename_i r hr; exact absurd hr (hns r).1
    · rename_i r hr; exact absurd hr (hns r).2
    · rw [parseNat_fmtNat]
      simp only
      by_cases h : k < 2 ^ 63
      · rw [if_pos h, if_pos (by omega)]
      · rw [if_neg h, if_neg (by omega)]

/-- C46: unsigned: the digits before the point if they are below 2^64, and never a negative number. -/
theorem C46_unsigned (k : Nat) (frac : Str) (hf : frac = [] ∨ ∃ r, frac = '.' :: r) :
    (Node.digits (fmtNat k ++ frac) : Node X).uint64 = (if k < 2 ^ 64 then some (k : Int) else none) ∧ (Node.digits ('-' :: (fmtNat k ++ frac)) : Node X).uint64 = none := by
  have key : ∀ (a : Str), (∀ c ∈ a, c ≠ '.') → trimDecimal (a ++ frac) = a := by
    intro a h
    induction a with
    | nil => rcases hf with rfl | ⟨r, rfl⟩ <;> simp [trimDecimal]
    | cons c a ih =>
      have := h c List.mem_cons_self
      have ih := ih (fun c hc => h c (List.mem_cons_of_mem _ hc))
      simp only [trimDecimal, List.cons_append] at ih ⊢
      rw [List.takeWhile_cons_of_pos (by simpa using this), ih]
  have hall : ∀ c ∈ fmtNat k, c ≠ '.' := by
    intro c hc
    have := fmtNat_digits k c hc
    rintro rfl
    revert this; decide
  constructor
  · simp only [Node.uint64, key _ hall, parseUint, parseNat_fmtNat]
    split <;> rfl
  · have : trimDecimal ('-' :: (fmtNat k ++ frac)) = '-' :: fmtNat k := key ('-' :: fmtNat k) (by
      intro c hc
      rcases List.mem_cons.1 hc with rfl | hc
      · decide
      · exact hall c hc)
    simp only [Node.uint64, this, parseUint, parseNat, digitsVal]
    have : digitVal '-' = none := by decide
    simp [this]

/-- C46 is violated for numbers with an exponent after a decimal point: `1.5e3` is read as 1. -/
theorem C46_exponent_violated (H : Handler X) (O : Order) (old : BitVec 64) :
    unmarshal (X := X) H O (.int .w64) (.digits (lit "1.5e3")) old = .done (1#64 : BitVec 64) :=
  un_int H O .w64 _ old 1 (by show parseInt (trimDecimal (lit "1.5e3")) = some 1; decide)

/-! ### C48: pairs -/

theorem find_lookup (name : Str) (l : List ((Str × Str) × Node X)) : findPair name l = lookupKey name (l.map fun p => (p.1.2, p.2)) := by
  induction l with
  | nil => rfl
  | cons p l ih => simp only [findPair, List.map_cons, lookupKey, ih, eq_comm]

/-- C48: with distinct JSON names `Find` and `AsMap` agree on every key. -/
theorem C48_distinct (l : List ((Str × Str) × Node X)) (h : (l.map (·.1.2)).Nodup) (name : Str) : findPair name l = lookupKey name (asMap l) := by
  rw [find_lookup]
  unfold asMap
  rw [lookup_ofEntries, lookup_reverse_nodup _ _ (by rw [List.map_map]; exact h)]

/-- C48: in general `Find` takes the first pair with the name, and `AsMap` the last. -/
theorem C48_first_last (l : List ((Str × Str) × Node X)) (name : Str) :
    findPair name l = ((l.filter fun p => p.1.2 = name).head?).map (·.2) ∧ lookupKey name (asMap l) = ((l.filter fun p => p.1.2 = name).getLast?).map (·.2) := by
  have key : ∀ l : List ((Str × Str) × Node X), lookupKey name (l.map fun p => (p.1.2, p.2)) = ((l.filter fun p => p.1.2 = name).head?).map (·.2) := by
    intro l
    induction l with
    | nil => rfl
    | cons p l ih =>
      simp only [List.map_cons, lookupKey, List.filter_cons]
      by_cases hp : p.1.2 = name
      · simp [hp]
      · have hp' : ¬ name = p.1.2 := fun h => hp h.symm
        simp [hp, hp', ih]
  refine ⟨by rw [find_lookup, key], ?_⟩
  unfold asMap
  rw [lookup_ofEntries, ← List.map_reverse, key, List.filter_reverse, List.head?_reverse]

/-- C48: JSON encoding and decoding pairs gives the map of `AsMap`, and unmarshalling them into anything is unmarshalling that map. -/
theorem C48_json (hX : Laws X) (l : List ((Str × Str) × Node X)) (hwf : (Node.pairs l).WF) (s : Str) (he : encode (.pairs l) = .ok s)
    (hd : (Node.pairs l).depth ≤ maxDepth) : decode s = some (some (.map (asMap (l.map fun p => (p.1, p.2.norm))))) := by
  rw [C39_round_trip hX _ hwf s he hd]
  simp only [Node.norm, asMap, pairsNorm_eq, List.map_map]
  rfl

/-- C48: unmarshalling pairs into a struct or a map is unmarshalling the map of `AsMap`. -/
theorem C48_unmarshal (H : Handler X) (O : Order) (l : List ((Str × Str) × Node X)) :
    (∀ (fs : Fields) (old : FVals X fs), unmarshal H O (.struct fs) (.pairs l) old = unmarshal H O (.struct fs) (.map (asMap l)) old) ∧
    (∀ (k : KTy) (t : Ty) (old : Val X (.map k t)), unmarshal H O (.map k t) (.pairs l) old = unmarshal H O (.map k t) (.map (asMap l)) old) :=
  ⟨fun _ _ => rfl, fun _ _ _ => rfl⟩

/-! ### concrete cases -/
section Examples

/-- Two floats and two times, with texts that read back. -/
def XT : Ext where
  F := Bool
  T := Bool
  fJson := fun f => some (if f then lit "1.5" else lit "0")
  fParse := fun s => if s = lit "1.5" then some true else if s = lit "0" then some false else none
  fStr := fun f => if f then lit "1.500000" else lit "0.000000"
  fOfInt := fun i => i ≠ 0
  fToInt := fun f => if f then 1 else 0
  fToUint := fun f => if f then 1 else 0
  f32 := id
  fIsZero := fun f => !f
  fZero := false
  tFmt := fun t => if t then lit "2020-01-02T03:04:05Z" else lit "0001-01-01T00:00:00Z"
  tParse := fun s => if s = lit "2020-01-02T03:04:05Z" then some true else if s = lit "0001-01-01T00:00:00Z" then some false else none
  tZero := false
  dStr := fun d => fmtInt d ++ lit "ns"
  dParse := fun s => parseInt (s.takeWhile (· ≠ 'n'))
  tStr := fun t => if t then lit "2020-01-02 03:04:05 +0000 UTC" else lit "0001-01-01 00:00:00 +0000 UTC"
  tStrict := fun s => if s = lit "2020-01-02T03:04:05Z" then some true else if s = lit "0001-01-01T00:00:00Z" then some false else none

instance : DecidableEq XT.F := inferInstanceAs (DecidableEq Bool)
instance : DecidableEq XT.T := inferInstanceAs (DecidableEq Bool)

/-- The assumptions can be met. -/
theorem XT_laws : Laws XT := ⟨by intro f t h; cases f <;> injection h with h <;> subst h <;> decide +kernel,
  by intro f t h; cases f <;> injection h with h <;> subst h <;> decide +kernel⟩

theorem XT_time (t : XT.T) : XT.tStrict (XT.tFmt t) = some t := by
  have : ∀ t : Bool, XT.tStrict (XT.tFmt t) = @some XT.T t := by intro t; cases t <;> decide +kernel
  exact this t

/-- `struct { X float64; At time.Time "at" }` -/
def innerTy : Fields := .cons { name := lit "X" } .float64 (.cons { name := lit "At", tag := lit "at" } .time .nil)

/-- `struct { ID int32 "id"; Name string "name,omitempty"; Tags []string; Sub *inner; M map[string]uint8; A any; N Node; Secret string "-"; cache int }` -/
def outerTy : Fields :=
  .cons { name := lit "ID", tag := lit "id" } (.int .w32) <|
  .cons { name := lit "Name", tag := lit "name,omitempty" } .string <|
  .cons { name := lit "Tags" } (.slice .string) <|
  .cons { name := lit "Sub" } (.ptr (.struct innerTy)) <|
  .cons { name := lit "M" } (.map .str (.uint .w8)) <|
  .cons { name := lit "A" } .any <|
  .cons { name := lit "N" } .node <|
  .cons { name := lit "Secret", tag := lit "-" } .string <|
  .cons { name := lit "cache", exported := false } (.int .w64) .nil

/-- A value of the inner type. -/
def innerVal : FVals XT innerTy := ((true : Bool), (true : Bool), ())

/-- A value of the outer type. -/
def outerVal : FVals XT outerTy :=
  ((-7 : BitVec 32), lit "", some [lit "a", lit "b"], some innerVal, some [(lit "k", (200 : BitVec 8)), (lit "l", (0 : BitVec 8))],
    (Any.list [.f64 true, .nil, .map [(lit "z", .str (lit "w"))]] : Any XT), (some (.list [.digits (lit "12"), .nil]) : Option (Node XT)),
    lit "", (0 : BitVec 64), ())

theorem outer_faithful (J : Bool) : Faithful (X := XT) J (.struct outerTy) outerVal := by
  refine ⟨by decide +kernel, by decide +kernel, ?_⟩
  refine ⟨⟨trivial, fun h => absurd h (by decide +kernel)⟩, ⟨trivial, fun _ _ => rfl⟩, ⟨fun x _ => trivial, fun h => absurd h (by decide +kernel)⟩,
    ⟨⟨⟨by decide +kernel, by decide +kernel, ⟨fun _ => rfl, fun h => absurd h (by decide +kernel)⟩,
      ⟨XT_time true, fun h => absurd h (by decide +kernel)⟩, trivial⟩, fun h => h⟩, fun h => absurd h (by decide +kernel)⟩, ⟨⟨?_, ?_⟩, fun h => absurd h (by decide +kernel)⟩,
    ⟨?_, fun h => absurd h (by decide +kernel)⟩, ⟨?_, fun h => absurd h (by decide +kernel)⟩, rfl, rfl, trivial⟩
  · exact (by unfold SortedKeys; decide +kernel : SortedKeys [(lit "k", (200 : BitVec 8)), (lit "l", (0 : BitVec 8))])
  · intro e he
    refine ⟨rfl, ?_⟩
    show BitVec.toNat (w := 8) e.2 < 2 ^ 63
    have := BitVec.isLt (w := 8) e.2
    omega
  · refine ⟨fun _ => rfl, trivial, ⟨?_, trivial, trivial⟩, trivial⟩
    exact (by unfold SortedKeys; decide +kernel : SortedKeys [(lit "z", (Any.str (lit "w") : Any XT))])
  · exact ⟨_, rfl, ⟨trivial, trivial, trivial⟩, rfl, by decide +kernel, by show 1 ≤ 10000; omega⟩

/-- The value above survives both ways; its JSON text is as expected. -/
example (O O' : Order) (H : Handler XT) : ∃ n, marshal O (.struct outerTy) outerVal = .ok n ∧ unmarshal H O' (.struct outerTy) n (zero XT _) = .done outerVal :=
  C40_round_trip XT_laws O O' H (.struct outerTy) outerVal (outer_faithful false)

/-- `omitempty` takes nothing from a node, a number and a duration that are not empty. -/
example (J : Bool) (O O' : Order) (H : Handler XT) : Faithful (X := XT) J (.struct (.cons { name := lit "N", tag := lit ",omitempty" } .node (.cons { name := lit "I", tag := lit ",omitempty" } (.int .w8) .nil)))
    ((some (.list [.digits (lit "1")]) : Option (Node XT)), (5 : BitVec 8), ()) := by
  refine ⟨by decide +kernel, by decide +kernel, ⟨⟨_, rfl, ⟨trivial, trivial⟩, rfl, by decide +kernel, by show 1 ≤ 10000; omega⟩, fun _ h => ?_⟩, ⟨trivial, fun _ h => ?_⟩, trivial⟩
  · rcases h with h | h | h <;> cases h
  · exact absurd (show (5 : BitVec 8) = 0 from h) (by decide : ¬ (5 : BitVec 8) = 0)

/-- Visiting maps in sorted order. -/
def sortedOrder : Order := ⟨fun l => l, fun l => List.Perm.refl l⟩

/-- C41, C44: the text of the value above; the empty `Name`, the skipped and the unexported field are missing, zeros without `omitempty` are not. -/
example : marshalJSON (X := XT) sortedOrder (.struct outerTy) outerVal = .ok (lit
    "{\"id\":-7,\"Tags\":[\"a\",\"b\"],\"Sub\":{\"X\":1.5,\"at\":\"2020-01-02T03:04:05Z\"},\"M\":{\"k\":200,\"l\":0},\"A\":[1.5,null,{\"z\":\"w\"}],\"N\":[12,null]}") := by
  decide +kernel

/-- A callback that accepts everything. -/
def acceptAll : Handler XT := ⟨some fun _ _ => false⟩

/-- C42: an object with one field, one unknown key, and a nested unknown key: the unknown ones are reported, the inner one first; the field `Name` that
is not mentioned keeps its value. -/
example : (unmarshalJSON acceptAll sortedOrder (.struct outerTy) (lit "{\"id\":3,\"Sub\":{\"u\":1},\"Id\":4}")
      ((0 : BitVec 32), lit "kept", none, none, none, (Any.nil : Any XT), none, lit "", (0 : BitVec 64), ())).calls =
    [(lit "u", .digits (lit "1")), (lit "Id", .digits (lit "4"))] := by decide +kernel
example : @id Str (unmarshalJSON acceptAll sortedOrder (.struct outerTy) (lit "{\"id\":3,\"Sub\":{\"u\":1},\"Id\":4}")
      ((0 : BitVec 32), lit "kept", none, none, none, (Any.nil : Any XT), none, lit "", (0 : BitVec 64), ())).val.2.1 = lit "kept" := by decide +kernel

/-- C41: and read from that text. -/
example (H : Handler XT) : ∃ s, marshalJSON sortedOrder (.struct outerTy) outerVal = .ok s ∧ unmarshalJSON H sortedOrder (.struct outerTy) s (zero XT _) = .done outerVal := by
  obtain ⟨n, hn, h⟩ := C41_round_trip XT_laws sortedOrder sortedOrder H (.struct outerTy) outerVal (outer_faithful true)
  refine h ?_
  have hd : (match marshal sortedOrder (.struct outerTy) outerVal with | .ok m => decide (m.depth ≤ maxDepth) | _ => false) = true := by decide +kernel
  rw [hn] at hd
  exact of_decide_eq_true hd

/-- C42: with no callback, a key that is no name is nothing; with one that fails it is an error. -/
example : (unmarshalJSON ⟨none⟩ sortedOrder (.struct secretTy) (lit "{\"u\":1}") (X := XT) (lit "old", ())).st = .ok ∧
    (unmarshalJSON ⟨some fun _ _ => true⟩ sortedOrder (.struct secretTy) (lit "{\"u\":1}") (X := XT) (lit "old", ())).st = .err := by decide +kernel

/-- C43: a field of the tag `-` and a private one are not in the text, and are as they were. -/
example : marshalJSON (X := XT) sortedOrder (.struct (.cons { name := lit "A" } .string (.cons { name := lit "Secret", tag := lit "-" } .string (.cons { name := lit "b", exported := false } .string .nil))))
      (lit "x", lit "s", lit "p", ()) = .ok (lit "{\"A\":\"x\"}") ∧
    @id Str (unmarshalJSON (X := XT) ⟨none⟩ sortedOrder (.struct secretTy) (lit "{\"Secret\":\"x\",\"-\":\"y\"}") (lit "old", ())).val.1 = lit "old" := by decide +kernel

/-- C44: what is empty is left out if the tag says so. -/
example : marshalJSON (X := XT) sortedOrder (.struct (.cons { name := lit "A", tag := lit "a,omitempty" } .string (.cons { name := lit "B", tag := lit "b" } .string .nil))) (lit "", lit "", ()) = .ok (lit "{\"b\":\"\"}") ∧
    marshalJSON (X := XT) sortedOrder (.struct (.cons { name := lit "A", tag := lit "a,omitempty" } .string (.cons { name := lit "B", tag := lit "b" } .string .nil))) (lit "x", lit "", ()) =
      .ok (lit "{\"a\":\"x\",\"b\":\"\"}") := by decide +kernel

/-- C45: 300 is 44 in eight bits, and the largest number of 64 bits is written as -1, which can not be read. -/
example : (let r : Out XT (BitVec 8) := unmarshalJSON ⟨none⟩ sortedOrder (.uint .w8) (lit "300") (0 : BitVec 8); (r.st, r.val)) = (.ok, 44#8) ∧
    marshalJSON (X := XT) sortedOrder (.uint .w64) (BitVec.ofNat 64 (2 ^ 64 - 1)) = .ok (lit "-1") ∧
    (unmarshalJSON (X := XT) ⟨none⟩ sortedOrder (.uint .w64) (lit "-1") (0 : BitVec 64)).st = .err := by decide +kernel

/-- C45: the smallest and the largest of eight bits, with a sign. -/
example : (let r : Out XT (BitVec 8) := unmarshalJSON ⟨none⟩ sortedOrder (.int .w8) (lit "-128") (0 : BitVec 8); (r.st, r.val.toInt)) = (.ok, -128) ∧
    (let r : Out XT (BitVec 8) := unmarshalJSON ⟨none⟩ sortedOrder (.int .w8) (lit "128") (0 : BitVec 8); (r.st, r.val.toInt)) = (.ok, -128) := by decide +kernel

/-- C46: `-3.9` is -3, `9223372036854775808` fails. -/
example : (Node.digits (lit "-3.9") : Node XT).int64 = some (-3) ∧ (Node.digits (lit "9223372036854775808") : Node XT).int64 = none := by decide +kernel

/-- C46: without a sign; and `1.5e3` is one, `1e3` is nothing. -/
example : (Node.digits (lit "18446744073709551615.5") : Node XT).uint64 = some (2 ^ 64 - 1) ∧ (Node.digits (lit "-3") : Node XT).uint64 = none ∧
    (let r : Out XT (BitVec 64) := unmarshalJSON ⟨none⟩ sortedOrder (.int .w64) (lit "1.5e3") (0 : BitVec 64); (r.st, r.val)) = (.ok, 1#64) ∧
    (unmarshalJSON (X := XT) ⟨none⟩ sortedOrder (.int .w64) (lit "1e3") (0 : BitVec 64)).st = .err := by decide +kernel

/-- C48: duplicate names. -/
example : findPair (lit "a") [((lit "A", lit "a"), (.int 1 : Node XT)), ((lit "B", lit "a"), .int 2)] = some (.int 1) ∧
    lookupKey (lit "a") (asMap [((lit "A", lit "a"), (.int 1 : Node XT)), ((lit "B", lit "a"), .int 2)]) = some (.int 2) := by decide +kernel

end Examples

end Verif.Enc

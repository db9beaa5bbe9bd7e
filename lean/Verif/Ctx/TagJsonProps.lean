import Verif.Ctx.TagJson
import Verif.Ctx.Props
/-!
# C132: tags are JSON, and errors that are logged are described in the log
-/
set_option autoImplicit false
namespace Verif.Ctx.TagJson
open Verif.Strconv Verif.Enc Verif.Ctx

variable {X : Ext}

/-! ### specification -/

/-- The errors among the arguments, in order. -/
def errorsOf (args : List LArg) : List (Errors.Err (List Str) (Option Ctx)) :=
  args.filterMap fun | .err e => some e | _ => none

/-- The tags as the `Loggable` arguments leave them. -/
def rewritten (args : List LArg) (tags : TagMap) : TagMap :=
  args.foldl (fun m a => match a with | .loggable f => f m | _ => m) tags

/-- What a document means. -/
def meaning (X : Ext) (j : Str) : Node X := ((decode j).join).getD .nil

/-- What the log should tell about an error: its message, and if it has them its stack and the tags of its context. -/
def described (X : Ext) (errMsg : Errors.Err (List Str) (Option Ctx) → Str) (e : Errors.Err (List Str) (Option Ctx)) : Node X :=
  .map ((lit "error", .str (errMsg e)) ::
    match e.asCtx with
    | none => []
    | some (st, none) => [(lit "stack", .list (st.map .str))]
    | some (st, some c) => [(lit "stack", .list (st.map .str)), (lit "tags", .map ((extractMap (some c)).map fun p => (p.1, meaning X p.2)))])

/-- Every tag of the context is a JSON document with at most `d` levels. -/
def TagsDoc (X : Ext) (d : Nat) (c : Ctx) : Prop := ∀ k j, extractTags (some c) k = some j → ∃ n : Node X, Doc d j.toList n

/-! ### lemmas -/

theorem jsonStr_JStr (s : Str) : JStr (s.flatMap escJson) s := by
  obtain ⟨t, ht, hs⟩ := parseStr_sound _ _ _ _ (Nat.le_refl _) (parseStr_jsonStr s [])
  have := List.append_cancel_right ht
  rw [this]; exact hs

theorem jsonStr_val (d : Nat) (s : Str) : JVal (X := X) d (jsonStr s) (.str s) := .str d _ s (jsonStr_JStr s)

theorem member_one (d : Nat) (k t : Str) (n : Node X) (h : JVal d t n) : JMembers d (jsonStr k ++ ':' :: t) [(k, n)] := by
  have := JMembers.one (X := X) d [] _ k [] [] t [] n blank_nil (jsonStr_JStr k) blank_nil blank_nil h blank_nil
  simpa [jsonStr] using this

theorem member_more (d : Nat) (k t ts : Str) (n : Node X) (m : List (Str × Node X)) (h : JVal d t n) (hm : JMembers d ts m) :
    JMembers d (jsonStr k ++ ':' :: (t ++ ',' :: ts)) ((k, n) :: m) := by
  have := JMembers.more (X := X) d [] _ k [] [] t [] ts n m blank_nil (jsonStr_JStr k) blank_nil blank_nil h blank_nil hm
  simpa [jsonStr] using this

theorem elem_one (d : Nat) (t : Str) (n : Node X) (h : JVal d t n) : JElems d t [n] := by
  have := JElems.one (X := X) d [] t [] n blank_nil h blank_nil
  simpa using this

theorem elem_more (d : Nat) (t ts : Str) (n : Node X) (l : List (Node X)) (h : JVal d t n) (hl : JElems d ts l) : JElems d (t ++ ',' :: ts) (n :: l) := by
  have := JElems.more (X := X) d [] t [] ts n l blank_nil h blank_nil hl
  simpa using this

theorem decode_doc (d : Nat) (hd : d ≤ maxDepth) (s : Str) (n : Node X) (h : Doc d s n) : decode s = some (some n) := by
  obtain ⟨w, t, w', rfl, hw, hw', ht⟩ := h
  exact (C114_document w t w' n hw hw' (val_mono ht _ hd)).1

theorem meaning_doc (d : Nat) (hd : d ≤ maxDepth) (s : Str) (n : Node X) (h : Doc d s n) : meaning X s = n := by
  rw [meaning, decode_doc d hd s n h]; rfl

theorem strs_val (d : Nat) (st : List Str) : JVal (X := X) (d + 1) ('[' :: (strsText st ++ [']'])) (.list (st.map .str)) := by
  cases st with
  | nil => exact .noElems d [] blank_nil
  | cons s st =>
    refine .elems d _ _ ?_
    induction st generalizing s with
    | nil => exact elem_one d _ _ (jsonStr_val d s)
    | cons s' st ih => exact elem_more d _ _ _ _ (jsonStr_val d s) (ih s')

theorem tagsText_ok (d : Nat) (hd : d ≤ maxDepth) : ∀ (l : TagMap), (∀ p ∈ l, ∃ n : Node X, Doc d p.2 n) → l ≠ [] →
    ∃ t, tagsText X l = some t ∧ JMembers d t (l.map fun p => (p.1, meaning X p.2))
  | [], _, h => absurd rfl h
  | [(k, j)], h, _ => by
    obtain ⟨n, hn⟩ := h (k, j) (List.mem_cons_self ..)
    obtain ⟨t, ht, hv⟩ := viaMarshalJSON_doc d hd j n hn
    refine ⟨_, by simp only [tagsText, ht]; rfl, ?_⟩
    simp only [List.map_cons, List.map_nil, meaning_doc d hd j n hn]
    exact member_one d k t n hv
  | (k, j) :: p :: l, h, _ => by
    obtain ⟨n, hn⟩ := h (k, j) (List.mem_cons_self ..)
    obtain ⟨t, ht, hv⟩ := viaMarshalJSON_doc d hd j n hn
    obtain ⟨ts, hts, hm⟩ := tagsText_ok d hd (p :: l) (fun q hq => h q (List.mem_cons_of_mem _ hq)) (by simp)
    refine ⟨_, by rw [tagsText]; simp only [ht, hts]; rfl, ?_⟩
    rw [List.map_cons]
    simp only [meaning_doc d hd j n hn]
    exact member_more d k t ts n _ hv hm

theorem tags_val (d : Nat) (hd : d ≤ maxDepth) (l : TagMap) (hs : SortedKeys l) (h : ∀ p ∈ l, ∃ n : Node X, Doc d p.2 n) :
    ∃ t, tagsText X l = some t ∧ JVal (d + 1) ('{' :: (t ++ ['}'])) (.map (l.map fun p => (p.1, meaning X p.2))) := by
  cases l with
  | nil => exact ⟨[], rfl, .noMembers d [] blank_nil⟩
  | cons p l =>
    obtain ⟨t, ht, hm⟩ := tagsText_ok d hd (p :: l) h (by simp)
    refine ⟨t, ht, ?_⟩
    have := JVal.members d t _ hm
    rwa [ofEntries_sorted] at this
    unfold SortedKeys at hs ⊢
    exact List.pairwise_map.2 hs

theorem tagsText_bad : ∀ (l : TagMap) (p : Str × Str), p ∈ l → viaMarshalJSON X p.2 = none → tagsText X l = none
  | (k, j) :: l, p, hp, h => by
    rw [tagsText]
    rcases List.mem_cons.1 hp with rfl | hp
    · simp only at h; rw [h]
    · split
      · rfl
      · cases l with
        | nil => cases hp
        | cons q l => rw [tagsText_bad (q :: l) p hp h]

theorem extract_sorted (c : Ctx) : ∀ (m : TagMap), SortedKeys m →
    SortedKeys (valueRange (E := Empty) (fun k j (out : TagMap) => (insertKey k.toList j.toList out, none)) c m).1 := by
  have hnone : ∀ (c : Ctx) (m : TagMap), (valueRange (E := Empty) (fun k j (out : TagMap) => (insertKey k.toList j.toList out, none)) c m).2 = none := by
    intro c m
    cases h : (valueRange (E := Empty) (fun k j (out : TagMap) => (insertKey k.toList j.toList out, none)) c m).2 with
    | none => rfl
    | some e => exact e.elim
  induction c with
  | background => intro m h; exact h
  | value k v p ih => exact ih
  | config ptr p ih => exact ih
  | cancel id d p ih => exact ih
  | tag k j p ih =>
    intro m h
    rw [valueRange]
    have h1 := ih m h
    have h2 := hnone p m
    split
    · rename_i s e he; rw [he] at h2; cases h2
    · rename_i s he
      rw [he] at h1
      exact sorted_insertKey _ _ _ h1
  | tracking id l p ih => exact ih
  | detached p ih => exact ih

theorem extractMap_sorted (c : Ctx) : SortedKeys (extractMap (some c)) := extract_sorted c [] (by simp [SortedKeys])

/-- The map of tags and the function of Ctx/Model.lean are the same. -/
theorem extractMap_lookup (c : Ctx) (k : String) : lookupKey k.toList (extractMap (some c)) = (extractTags (some c) k).map String.toList := by
  have key : ∀ (c : Ctx) (m : TagMap) (f : Tags), (∀ k : String, lookupKey k.toList m = (f k).map String.toList) → ∀ k : String,
      lookupKey k.toList (valueRange (E := Empty) (fun k j (out : TagMap) => (insertKey k.toList j.toList out, none)) c m).1 =
        ((valueRange (E := Empty) (fun k j (out : Tags) => (out.set k j, none)) c f).1 k).map String.toList := by
    have hnone : ∀ (c : Ctx) (m : TagMap), (valueRange (E := Empty) (fun k j (out : TagMap) => (insertKey k.toList j.toList out, none)) c m).2 = none := by
      intro c m
      cases h : (valueRange (E := Empty) (fun k j (out : TagMap) => (insertKey k.toList j.toList out, none)) c m).2 with
      | none => rfl
      | some e => exact e.elim
    have hnone' : ∀ (c : Ctx) (m : Tags), (valueRange (E := Empty) (fun k j (out : Tags) => (out.set k j, none)) c m).2 = none := by
      intro c m
      cases h : (valueRange (E := Empty) (fun k j (out : Tags) => (out.set k j, none)) c m).2 with
      | none => rfl
      | some e => exact e.elim
    intro c
    induction c with
    | background => intro m f h; exact h
    | value k v p ih => exact ih
    | config ptr p ih => exact ih
    | cancel id d p ih => exact ih
    | tag k j p ih =>
      intro m f h k'
      rw [valueRange, valueRange]
      have h1 := ih m f h k'
      have h2 := hnone p m
      have h3 := hnone' p f
      split
      · rename_i s e he; rw [he] at h2; cases h2
      · rename_i s he
        split
        · rename_i s' e he'; rw [he'] at h3; cases h3
        · rename_i s' he'
          rw [he, he'] at h1
          simp only [Tags.set]
          rw [lookup_insertKey]
          by_cases hk : k' = k
          · subst hk; simp
          · have : k'.toList ≠ k.toList := fun h => hk (String.toList_inj.1 h)
            simp only [this, hk, if_false]
            exact h1
    | tracking id l p ih => exact ih
    | detached p ih => exact ih
  exact key c [] (fun _ => none) (fun _ => rfl) k

theorem extractMap_mem (c : Ctx) (p : Str × Str) (h : p ∈ extractMap (some c)) : extractTags (some c) (String.ofList p.1) = some (String.ofList p.2) := by
  have h1 := lookup_of_mem (extractMap_sorted c) (k := p.1) (v := p.2) h
  have h2 := extractMap_lookup c (String.ofList p.1)
  rw [String.toList_ofList, h1] at h2
  cases h3 : extractTags (some c) (String.ofList p.1) with
  | none => rw [h3] at h2; cases h2
  | some j =>
    rw [h3] at h2
    simp only [Option.map_some, Option.some.injEq] at h2
    rw [h2, String.ofList_toList]

theorem argLoop_eq (errMsg : Errors.Err (List Str) (Option Ctx) → Str) (args : List LArg) : ∀ (tags : TagMap) (errs : List Report),
    argLoop errMsg args tags errs = (rewritten args tags, errs ++ (errorsOf args).map (report errMsg)) := by
  induction args with
  | nil => intro tags errs; simp [argLoop, rewritten, errorsOf]
  | cons a as ih =>
    intro tags errs
    cases a with
    | loggable f => rw [argLoop, ih]; rfl
    | err e => rw [argLoop, ih, List.append_assoc]; rfl
    | plain => rw [argLoop, ih]; rfl

theorem report_val (d : Nat) (hd : d ≤ maxDepth) (errMsg : Errors.Err (List Str) (Option Ctx) → Str) (e : Errors.Err (List Str) (Option Ctx))
    (h : ∀ st c, e.asCtx = some (st, some c) → TagsDoc X d c) : ∃ t, reportText X (report errMsg e) = some t ∧ JVal (d + 2) t (described X errMsg e) := by
  have hk : ∀ (a b c : Node X), SortedKeys [(lit "error", a), (lit "stack", b), (lit "tags", c)] := by
    intro a b c; simp only [SortedKeys, List.pairwise_cons, List.mem_cons, List.not_mem_nil, or_false, List.Pairwise.nil, and_true]
    refine ⟨?_, ?_, ?_⟩
    · intro p hp; rcases hp with rfl | rfl
      · show strLt (lit "error") (lit "stack") = true; decide
      · show strLt (lit "error") (lit "tags") = true; decide
    · intro p hp; subst hp; show strLt (lit "stack") (lit "tags") = true; decide
    · intro p hp; cases hp
  unfold report described
  cases hc : e.asCtx with
  | none =>
    refine ⟨_, rfl, ?_⟩
    have := JVal.members (X := X) (d + 1) _ _ (member_one (d + 1) (lit "error") _ _ (jsonStr_val (d + 1) (errMsg e)))
    simpa [ofEntries, insertKey] using this
  | some q =>
    obtain ⟨st, oc⟩ := q
    cases oc with
    | none =>
      refine ⟨_, rfl, ?_⟩
      have := JVal.members (X := X) (d + 1) _ _ (member_more (d + 1) (lit "error") _ _ _ _ (jsonStr_val (d + 1) (errMsg e)) (member_one (d + 1) (lit "stack") _ _ (strs_val d st)))
      have hk2 := hk (.str (errMsg e)) (.list (st.map .str)) .nil
      rw [ofEntries_sorted _ (List.Pairwise.sublist (List.sublist_append_left [_, _] [_]) hk2)] at this
      simpa using this
    | some c =>
      obtain ⟨t, ht, hv⟩ := tags_val d hd (extractMap (some c)) (extractMap_sorted c) (by
        intro p hp
        have := extractMap_mem c p hp
        obtain ⟨n, hn⟩ := h st c hc _ _ this
        exact ⟨n, by simpa using hn⟩)
      refine ⟨_, by simp only [reportText, ht]; rfl, ?_⟩
      have := JVal.members (X := X) (d + 1) _ _ (member_more (d + 1) (lit "error") _ _ _ _ (jsonStr_val (d + 1) (errMsg e))
        (member_more (d + 1) (lit "stack") _ _ _ _ (strs_val d st) (member_one (d + 1) (lit "tags") _ _ hv)))
      rw [ofEntries_sorted _ (hk _ _ _)] at this
      simpa using this

theorem reports_val (d : Nat) (hd : d ≤ maxDepth) (errMsg : Errors.Err (List Str) (Option Ctx) → Str) : ∀ (es : List (Errors.Err (List Str) (Option Ctx))), es ≠ [] →
    (∀ e ∈ es, ∀ st c, e.asCtx = some (st, some c) → TagsDoc X d c) →
    ∃ t, reportsText X (es.map (report errMsg)) = some t ∧ JElems (d + 2) t (es.map (described X errMsg))
  | [], h, _ => absurd rfl h
  | [e], _, h => by
    obtain ⟨t, ht, hv⟩ := report_val d hd errMsg e (h e (List.mem_cons_self ..))
    exact ⟨t, by simp only [List.map_cons, List.map_nil, reportsText, ht], elem_one _ t _ hv⟩
  | e :: e' :: es, _, h => by
    obtain ⟨t, ht, hv⟩ := report_val d hd errMsg e (h e (List.mem_cons_self ..))
    obtain ⟨ts, hts, hm⟩ := reports_val d hd errMsg (e' :: es) (by simp) (fun x hx => h x (List.mem_cons_of_mem _ hx))
    refine ⟨t ++ ',' :: ts, ?_, elem_more _ t ts _ _ hv hm⟩
    rw [List.map_cons] at hts ⊢
    rw [List.map_cons, reportsText]
    simp only [ht, hts]

theorem reports_bad (errMsg : Errors.Err (List Str) (Option Ctx) → Str) : ∀ (es : List (Errors.Err (List Str) (Option Ctx))) (e : Errors.Err (List Str) (Option Ctx)), e ∈ es →
    reportText X (report errMsg e) = none → reportsText X (es.map (report errMsg)) = none
  | a :: es, e, he, h => by
    rw [List.map_cons, reportsText]
    rcases List.mem_cons.1 he with rfl | he
    · rw [h]
    · split
      · rfl
      · cases es with
        | nil => cases he
        | cons b es =>
          have := reports_bad errMsg (b :: es) e he h
          rw [List.map_cons] at this ⊢
          simp only [this]

/-! ### properties -/

/-- C132, for everything but JSON that is handed over as such: what `WithTag` keeps is a JSON document, whatever the value. `json.Marshal` is assumed to write JSON. -/
theorem C132_tag_json_partial (E : TagExt) (v : TagVal) (hr : ∀ j, v ≠ .raw (some j)) (hj : ∀ j, v ≠ .json (some j))
    (hm : ∀ t, v = .other (.ok t) → ∃ d, ∃ n : Node X, JVal d t n) : ∃ d, ∃ n : Node X, Doc d (tagJson X E v) n := by
  have one : ∀ (d : Nat) (t : Str) (n : Node X), JVal d t n → Doc d t n := fun d t n h => ⟨[], t, [], by simp, blank_nil, blank_nil, h⟩
  cases v with
  | raw j =>
    cases j with
    | none => exact ⟨0, _, one _ _ _ (.null 0)⟩
    | some j => exact absurd rfl (hr j)
  | json j =>
    cases j with
    | none => exact ⟨0, _, one _ _ _ (jsonStr_val 0 _)⟩
    | some j => exact absurd rfl (hj j)
  | bytes j =>
    cases j with
    | none => exact ⟨0, _, one _ _ _ (.null 0)⟩
    | some j =>
      rw [tagJson]
      split
      · rename_i h
        exact ⟨maxDepth, (validDoc_iff j).1 h⟩
      · exact ⟨0, _, one _ _ _ (jsonStr_val 0 _)⟩
  | other r =>
    cases r with
    | ok t =>
      obtain ⟨d, n, h⟩ := hm t rfl
      exact ⟨d, n, one _ _ _ h⟩
    | error m => exact ⟨0, _, one _ _ _ (jsonStr_val 0 _)⟩

/-- C132, if all tags are JSON with at most 9997 levels: when errors are among the arguments, the tag `error` of the line is a JSON list with the description of each, in order;
the other tags are as the `Loggable` arguments leave them. -/
theorem C132_reported_partial (errMsg : Errors.Err (List Str) (Option Ctx) → Str) (args : List LArg) (tags : TagMap)
    (h0 : errorsOf args ≠ []) (h : ∀ e ∈ errorsOf args, ∀ st c, e.asCtx = some (st, some c) → TagsDoc X 9997 c) :
    (∃ t, lookupKey (lit "error") (formatTags X errMsg args tags) = some t ∧ decode t = some (some (.list ((errorsOf args).map (described X errMsg))))) ∧
    ∀ k, k ≠ lit "error" → lookupKey k (formatTags X errMsg args tags) = lookupKey k (rewritten args tags) := by
  obtain ⟨t, ht, hv⟩ := reports_val 9997 (by decide) errMsg (errorsOf args) h0 h
  have hlen : (([] : List Report) ++ (errorsOf args).map (report errMsg)).length > 0 := by
    have := List.length_pos_iff.2 h0
    simpa using this
  have hf : formatTags X errMsg args tags = insertKey (lit "error") ('[' :: (t ++ [']'])) (rewritten args tags) := by
    simp only [formatTags, argLoop_eq]
    rw [if_pos hlen, List.nil_append, ht]
  rw [hf]
  refine ⟨⟨_, by rw [lookup_insertKey, if_pos rfl], ?_⟩, fun k hk => by rw [lookup_insertKey, if_neg hk]⟩
  exact decode_doc maxDepth (Nat.le_refl _) _ _ ⟨[], _, [], by simp, blank_nil, blank_nil, .elems 9999 t _ hv⟩

/-- C132: without errors among the arguments no tag is added. -/
theorem C132_no_errors (errMsg : Errors.Err (List Str) (Option Ctx) → Str) (args : List LArg) (tags : TagMap) (h0 : errorsOf args = []) :
    formatTags X errMsg args tags = rewritten args tags := by
  simp only [formatTags, argLoop_eq, h0]
  rfl

/-- C132: the tags told of a context are the ones attached last, each once. -/
theorem C132_tags_told (quote : String → String) (ws : List Wrap) (k : String) :
    lookupKey k.toList ((extractMap (some (build quote .background ws))).map fun p => (p.1, meaning X p.2)) =
      ((ws.filterMap (Wrap.tag? quote)).reverse.find? (fun p => p.1 = k)).map (fun p => meaning X p.2.toList) := by
  have hl : ∀ (l : TagMap), lookupKey k.toList (l.map fun p => (p.1, meaning X p.2)) = (lookupKey k.toList l).map (meaning X) := by
    intro l
    induction l with
    | nil => rfl
    | cons p l ih =>
      obtain ⟨a, b⟩ := p
      simp only [List.map_cons, lookupKey]
      split
      · rfl
      · exact ih
  rw [hl, extractMap_lookup, C21_extract]
  cases (ws.filterMap (Wrap.tag? quote)).reverse.find? (fun p => p.1 = k) <;> rfl

/-- C132 fails: `WithTag` keeps what it is given as JSON without looking at it. A tag that is no JSON in the context of one error makes the log say nothing about any of the errors:
no message, no stack, no tags, and no word about it. -/
theorem C132_lost_violated (E : TagExt) : ∃ (c : Ctx) (v : TagVal), c = withTag X E .background "k" v ∧
    ∀ (errMsg : Errors.Err (List Str) (Option Ctx) → Str) (args : List LArg) (tags : TagMap) (cause : Errors.Err (List Str) (Option Ctx)) (st : List Str),
      .ctxErr cause st (some c) ∈ errorsOf args → formatTags X errMsg args tags = rewritten args tags := by
  refine ⟨_, .raw (some (lit "{")), rfl, ?_⟩
  intro errMsg args tags cause st hm
  have hbad : viaMarshalJSON X (lit "{") = none := rfl
  have h1 : reportText X (report errMsg (.ctxErr cause st (some (withTag X E .background "k" (.raw (some (lit "{"))))))) = none := by
    simp only [report, Errors.Err.asCtx, reportText]
    rw [tagsText_bad _ (lit "k", lit "{") _ hbad]
    exact List.mem_singleton.2 rfl
  have h2 := reports_bad errMsg (errorsOf args) _ hm h1
  simp only [formatTags, argLoop_eq]
  rw [List.nil_append, h2]
  simp

/-- C132 fails: so does a value that `json.Marshal` writes without complaint but that is nested more than 10000 deep. -/
theorem C132_deep_violated (E : TagExt) : ∃ (n : Node X) (t : Str), encode n = .ok t ∧
    ∀ (errMsg : Errors.Err (List Str) (Option Ctx) → Str) (args : List LArg) (tags : TagMap) (cause : Errors.Err (List Str) (Option Ctx)) (st : List Str),
      .ctxErr cause st (some (withTag X E .background "k" (.other (.ok t)))) ∈ errorsOf args → formatTags X errMsg args tags = rewritten args tags := by
  obtain ⟨t, ht, hd⟩ := C71_violated X 10000 (Nat.le_refl _)
  refine ⟨_, t, ht, ?_⟩
  intro errMsg args tags cause st hm
  have hbad : viaMarshalJSON X t = none := (viaMarshalJSON_none t).2 (fun n hn => by
    rw [decode_doc maxDepth (Nat.le_refl _) t n hn] at hd; cases hd)
  have h1 : reportText X (report errMsg (.ctxErr cause st (some (withTag X E .background "k" (.other (.ok t)))))) = none := by
    simp only [report, Errors.Err.asCtx, reportText]
    rw [tagsText_bad _ (lit "k", t) _ hbad]
    refine List.mem_singleton.2 ?_
    simp [tagJson, lit]
  have h2 := reports_bad errMsg (errorsOf args) _ hm h1
  simp only [formatTags, argLoop_eq]
  rw [List.nil_append, h2]
  simp

/-- C132 fails: a tag called `error` that the context already has is replaced in the line. -/
theorem C132_replaced_violated (errMsg : Errors.Err (List Str) (Option Ctx) → Str) (e : Errors.Err (List Str) (Option Ctx)) (he : e.asCtx = none) :
    ∃ t, lookupKey (lit "error") (formatTags X errMsg [.err e] [(lit "error", lit "1")]) = some t ∧ decode (X := X) t ≠ decode (lit "1") := by
  obtain ⟨⟨t, h1, h2⟩, _⟩ := C132_reported_partial (X := X) errMsg [.err e] [(lit "error", lit "1")] (by simp [errorsOf]) (by
    intro x hx st c hc
    have hx : x = e := by
      have hl : errorsOf [.err e] = [e] := rfl
      rw [hl] at hx
      exact List.mem_singleton.1 hx
    rw [hx] at hc
    rw [he] at hc; cases hc)
  refine ⟨t, h1, ?_⟩
  · rw [h2]
    intro h
    have h3 : decode (X := X) (lit "1") = some (some (.digits (lit "1"))) :=
      (C114_document [] (lit "1") [] _ blank_nil blank_nil (.num _ _ ⟨[], ['1'], [], [], rfl, Or.inl rfl, Or.inr ⟨⟨by decide, by decide⟩, by decide⟩, Or.inl rfl, Or.inl rfl⟩)).1
    rw [h3] at h
    simp at h

/-- The line of an error with a stack and tagged context: white space in the tag is dropped, `<` is escaped, and it means what it meant. -/
example : formatTags XJ (fun _ => lit "EOF") [.plain, .err (.ctxErr (.leaf 1 "EOF") [lit "a.go:1"] (some (.tag "b" " [1, \"<\"] " .background)))] [(lit "x", lit "1")] =
    [(lit "error", lit "[{\"error\":\"EOF\",\"stack\":[\"a.go:1\"],\"tags\":{\"b\":[1,\"\\u003c\"]}}]"), (lit "x", lit "1")] := by decide +kernel

end Verif.Ctx.TagJson

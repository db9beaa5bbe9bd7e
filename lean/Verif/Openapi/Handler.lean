import Verif.Openapi.Props
import Verif.Api.CallProps
/-!
# What a handler says about itself (api/handler.go L121-182), and what it does

The types of the fields as `reflect` shows them, and their `doc` tags, are a parameter `ty`, by index.
-/
set_option autoImplicit false
namespace Verif.Openapi
open Verif.Strconv Verif.Enc Verif.Api

variable {X : Ext} [DecidableEq X.F] [DecidableEq X.T]

/-- The parts of a `PathItem` (openapi/path.go L9-18) that depend on the handler: the properties of the request, those that are required, the properties of the response, and the
security: none, or whether it is required (`SetJWT`, L21-28). -/
structure PathItem where
  ins : List (Str × Schema)
  required : List Str
  outs : List (Str × Schema)
  security : Option Bool

/-- The loops over the fields (L132-142, L143-149). An error ends them (`errNil`). -/
def docFields (E : Env) (n : Nat) (ty : Nat → Str × OTy) : List HField → List (Str × Schema) → Table → R (List (Str × Schema))
  | [], props, tab => .ok props tab
  | f :: l, props, tab => (schema E n (ty f.i).1 (ty f.i).2 tab).bind fun s tab => docFields E n ty l (insertKey f.tag.name s props) tab

/-- The entries of `Paths` (L175-179), and the item returned. -/
structure Documented where
  item : PathItem
  paths : Str → Option PathItem

/-- `UpdateOpenAPI` (L121-182). -/
def update (E : Env) (n : Nat) (ty : Nat → Str × OTy) (h : AHandler) (paths : Str → Option PathItem) (tab : Table) : R Documented :=
  (docFields E n ty h.ins [] tab).bind fun ins tab => (docFields E n ty h.outs [] tab).bind fun outs tab =>
    let pi : PathItem := ⟨ins, (h.ins.filter fun f => f.tag.required).map fun f => f.tag.name, outs, h.auth.map fun f => f.tag.required⟩
    .ok ⟨pi, fun u => if u ∈ h.urls then some pi else paths u⟩ tab

/-! ### lemmas -/

theorem bind_isOk {α β : Type} {r : R α} {f : α → Table → R β} {b : β} {tab : Table} (h : r.bind f = .ok b tab) : ∃ a t, r = .ok a t ∧ f a t = .ok b tab := by
  cases r with
  | ok a t => exact ⟨a, t, rfl, h⟩
  | err _ => cases h
  | errNil _ => cases h
  | panic _ => cases h
  | loop => cases h

theorem docFields_keys (E : Env) (n : Nat) (ty : Nat → Str × OTy) : ∀ (l : List HField) (props props' : List (Str × Schema)) (tab tab' : Table),
    docFields E n ty l props tab = .ok props' tab' → ∀ k, (∃ s, lookupKey k props' = some s) ↔ (∃ s, lookupKey k props = some s) ∨ ∃ f ∈ l, f.tag.name = k
  | [], props, props', tab, tab', h, k => by injection h with h _; subst h; simp
  | f :: l, props, props', tab, tab', h, k => by
    obtain ⟨s, t, _, h⟩ := bind_isOk h
    rw [docFields_keys E n ty l _ _ _ _ h k, lookup_insertKey]
    constructor
    · rintro (⟨s', hs⟩ | ⟨g, hg, hk⟩)
      · split at hs
        · rename_i he; exact Or.inr ⟨f, List.mem_cons_self .., he.symm⟩
        · exact Or.inl ⟨s', hs⟩
      · exact Or.inr ⟨g, List.mem_cons_of_mem _ hg, hk⟩
    · rintro (⟨s', hs⟩ | ⟨g, hg, hk⟩)
      · left
        split
        · exact ⟨s, rfl⟩
        · exact ⟨s', hs⟩
      · rcases List.mem_cons.1 hg with rfl | hg
        · left; rw [if_pos hk.symm]; exact ⟨s, rfl⟩
        · exact Or.inr ⟨g, hg, hk⟩

theorem docFields_post (E : Env) (n : Nat) (ty : Nat → Str × OTy) : ∀ (l : List HField) (props props' : List (Str × Schema)) (tab tab' : Table), Closed tab →
    (∀ r ∈ Schema.propRefs props, Has tab r) → docFields E n ty l props tab = .ok props' tab' → Closed tab' ∧ Keeps tab tab' ∧ ∀ r ∈ Schema.propRefs props', Has tab' r
  | [], props, props', tab, tab', hc, hr, h => by injection h with h h'; subst h h'; exact ⟨hc, Keeps.refl _, hr⟩
  | f :: l, props, props', tab, tab', hc, hr, h => by
    obtain ⟨s, t, hs, h⟩ := bind_isOk h
    have hp := schema_post E n (ty f.i).1 (ty f.i).2 tab hc
    rw [hs] at hp
    obtain ⟨h1, h2, h3⟩ := docFields_post E n ty l _ _ _ _ hp.1 (fun r hr' => by
      rcases insert_refs hr' with hr' | hr'
      · exact hp.2.2.2.1 r hr'
      · exact hp.2.1.has (hr r hr')) h
    exact ⟨h1, hp.2.1.trans h2, h3⟩

theorem info_at {f : FieldInfo} : ∀ (fs : Fields) (obj : FVals X fs), f ∈ fs.infos → ∃ j t x, getField fs j obj = some (f, ⟨t, x⟩) := by
  intro fs
  induction fs using Fields.rec (motive_1 := fun _ => True) with
  | nil => intro obj h; cases h
  | cons g u fs _ ih =>
    rintro ⟨y, ys⟩ h
    rcases List.mem_cons.1 h with rfl | h
    · exact ⟨0, u, y, rfl⟩
    · obtain ⟨j, t, x, hx⟩ := ih ys h
      exact ⟨j + 1, t, x, hx⟩
  | _ => trivial

theorem listed_infos (U : Str → Option Str) (p : ATag → Bool) (fs : Fields) (v : FVals X fs) (hok : TagsOk U fs) (Q : ATag → Prop) :
    (∃ a ∈ collect U (fun t _ => p t) fs v 0, Q a.tag) ↔ ∃ f ∈ fs.infos, ∃ tag, parseTags U f = some tag ∧ p tag = true ∧ Q tag := by
  constructor
  · rintro ⟨a, ha, hq⟩
    obtain ⟨j, f, t, x, _, h2, h3, h4⟩ := collect_mem U _ fs v 0 a ha
    exact ⟨f, at_info h2, a.tag, h3, h4, hq⟩
  · rintro ⟨f, hf, tag, ht, hp, hq⟩
    obtain ⟨j, t, x, hx⟩ := info_at fs v hf
    exact ⟨⟨0 + j, tag⟩, collect_of_getField U _ fs v 0 j f t x tag hok hx ht hp, hq⟩

/-! ### C88 -/

/-- C88: the documented request has a property per name of an input, the required ones are those of required inputs, the response has a property per name of an output; a token
is asked for if there is a field for the identity, and every url leads to the item. -/
theorem C88_documented (U : Str → Option Str) (fs : Fields) (tmpl : Option (Val X (.struct fs))) (h : AHandler) (hh : newHandler U (.ptr (.struct fs) tmpl) = some h)
    (E : Env) (n : Nat) (ty : Nat → Str × OTy) (paths : Str → Option PathItem) (tab tab' : Table) (d : Documented) (hd : update E n ty h paths tab = .ok d tab') :
    (∀ k, (∃ s, lookupKey k d.item.ins = some s) ↔ ∃ f ∈ fs.infos, IsIn f ∧ tagName f = k) ∧
    (∀ k, k ∈ d.item.required ↔ ∃ f ∈ fs.infos, IsIn f ∧ IsRequired f ∧ tagName f = k) ∧
    (∀ k, (∃ s, lookupKey k d.item.outs = some s) ↔ ∃ f ∈ fs.infos, IsOut f ∧ tagName f = k) ∧
    (d.item.security = none ↔ ∀ f ∈ fs.infos, ¬ IsAuth f) ∧
    (d.item.security = some true ↔ ∃ f ∈ fs.infos, IsAuth f ∧ IsRequired f) ∧
    (∀ f ∈ fs.infos, f.url ≠ [] → ∃ u, U f.url = some u ∧ d.paths u = some d.item) ∧
    (∀ u, (∀ f ∈ fs.infos, U f.url ≠ some u) → d.paths u = paths u) := by
  obtain ⟨hok, hin, hout, hinit, hauth, hurls⟩ := scan_some U fs (content fs tmpl) 0 {} h hh
  simp only [List.nil_append] at hin hout hurls
  have hauth : h.auth.toList = collect U (fun t _ => t.auth) fs (content fs tmpl) 0 := by simpa using hauth
  obtain ⟨ins, t1, h1, hd⟩ := bind_isOk hd
  obtain ⟨outs, t2, h2, hd⟩ := bind_isOk hd
  injection hd with hd _
  subst hd
  have hw := fun f tag ht => (C53_words U f).2 tag ht
  have names : ∀ (p : ATag → Bool) (P : FieldInfo → Prop), (∀ f tag, parseTags U f = some tag → (p tag = true ↔ P f)) → ∀ k,
      (∃ a ∈ collect U (fun t _ => p t) fs (content fs tmpl) 0, a.tag.name = k) ↔ ∃ f ∈ fs.infos, P f ∧ tagName f = k := by
    intro p P hP k
    rw [listed_infos U p fs _ hok fun tag => tag.name = k]
    constructor
    · rintro ⟨f, hf, tag, ht, hp, hk⟩
      exact ⟨f, hf, (hP f tag ht).1 hp, (hw f tag ht).1 ▸ hk⟩
    · rintro ⟨f, hf, hp, hk⟩
      obtain ⟨tag, ht⟩ := hok f hf
      exact ⟨f, hf, tag, ht, (hP f tag ht).2 hp, (hw f tag ht).1.trans hk⟩
  refine ⟨fun k => ?_, fun k => ?_, fun k => ?_, ?_, ?_, fun f hf hu => ?_, fun u hu => ?_⟩
  · rw [docFields_keys E n ty _ _ _ _ _ h1 k, hin]
    simp only [lookupKey, reduceCtorEq, exists_false, false_or]
    exact names _ IsIn (fun f tag ht => (hw f tag ht).2.1) k
  · simp only [List.mem_map, List.mem_filter]
    rw [hin]
    constructor
    · rintro ⟨a, ⟨ha, hr⟩, hk⟩
      obtain ⟨f, hf, tag, ht, hp, hr, hk⟩ := (listed_infos U (fun t => t.isIn) fs (content fs tmpl) hok fun tag => tag.required = true ∧ tag.name = k).1 ⟨a, ha, hr, hk⟩
      exact ⟨f, hf, (hw f tag ht).2.1.1 hp, (hw f tag ht).2.2.2.2.1.1 hr, (hw f tag ht).1 ▸ hk⟩
    · rintro ⟨f, hf, hi, hr, hk⟩
      obtain ⟨tag, ht⟩ := hok f hf
      obtain ⟨a, ha, hr, hk⟩ := (listed_infos U (fun t => t.isIn) fs (content fs tmpl) hok fun tag => tag.required = true ∧ tag.name = k).2
        ⟨f, hf, tag, ht, (hw f tag ht).2.1.2 hi, (hw f tag ht).2.2.2.2.1.2 hr, (hw f tag ht).1.trans hk⟩
      exact ⟨a, ⟨ha, hr⟩, hk⟩
  · rw [docFields_keys E n ty _ _ _ _ _ h2 k, hout]
    simp only [lookupKey, reduceCtorEq, exists_false, false_or]
    exact names _ IsOut (fun f tag ht => (hw f tag ht).2.2.1) k
  · simp only [Option.map_eq_none_iff]
    constructor
    · intro hn f hf ha
      obtain ⟨tag, ht⟩ := hok f hf
      obtain ⟨a, h', _⟩ := (listed_infos U (fun t => t.auth) fs (content fs tmpl) hok fun _ => True).2 ⟨f, hf, tag, ht, (hw f tag ht).2.2.2.1.2 ha, trivial⟩
      rw [← hauth, hn] at h'; cases h'
    · intro hn
      cases ha : h.auth with
      | none => rfl
      | some a =>
        obtain ⟨f, hf, tag, ht, hp, _⟩ := (listed_infos U (fun t => t.auth) fs (content fs tmpl) hok fun _ => True).1 ⟨a, by rw [← hauth, ha]; exact List.mem_singleton.2 rfl, trivial⟩
        exact absurd ((hw f tag ht).2.2.2.1.1 hp) (hn f hf)
  · constructor
    · intro hs
      cases ha : h.auth with
      | none => rw [ha] at hs; cases hs
      | some a =>
        rw [ha] at hs; injection hs with hs
        obtain ⟨f, hf, tag, ht, hp, hr⟩ := (listed_infos U (fun t => t.auth) fs (content fs tmpl) hok fun tag => tag.required = true).1
          ⟨a, by rw [← hauth, ha]; exact List.mem_singleton.2 rfl, hs⟩
        exact ⟨f, hf, (hw f tag ht).2.2.2.1.1 hp, (hw f tag ht).2.2.2.2.1.1 hr⟩
    · rintro ⟨f, hf, ha, hr⟩
      obtain ⟨tag, ht⟩ := hok f hf
      obtain ⟨a, h', hr⟩ := (listed_infos U (fun t => t.auth) fs (content fs tmpl) hok fun tag => tag.required = true).2
        ⟨f, hf, tag, ht, (hw f tag ht).2.2.2.1.2 ha, (hw f tag ht).2.2.2.2.1.2 hr⟩
      rw [← hauth] at h'
      have := Option.mem_toList.1 h'
      show h.auth.map _ = _
      rw [this]; simp [hr]
  · obtain ⟨tag, ht⟩ := hok f hf
    have hurl := (hw f tag ht).2.2.2.2.2
    rw [if_neg hu] at hurl
    have hgood := ((C53_words U f).1.1 ⟨tag, ht⟩).2
    rcases hgood with hgood | hgood
    · exact absurd hgood hu
    · obtain ⟨u, hu'⟩ := Option.isSome_iff_exists.1 hgood
      refine ⟨u, hu', ?_⟩
      obtain ⟨a, ha, hau⟩ := (listed_infos U (fun t => t.url.isSome) fs (content fs tmpl) hok fun tag => tag.url = some u).2 ⟨f, hf, tag, ht, by rw [hurl, hu']; rfl, by rw [hurl, hu']⟩
      exact if_pos (by rw [hurls]; exact List.mem_filterMap.2 ⟨a, ha, hau⟩)
  · refine if_neg fun hm => ?_
    rw [hurls] at hm
    obtain ⟨a, ha, hau⟩ := List.mem_filterMap.1 hm
    obtain ⟨f, hf, tag, ht, _, hau⟩ := (listed_infos U (fun t => t.url.isSome) fs (content fs tmpl) hok fun tag => tag.url = some u).1 ⟨a, ha, hau⟩
    rw [(hw f tag ht).2.2.2.2.2] at hau
    split at hau
    · cases hau
    · exact hu f hf hau

/-- C88: every reference in the documented item resolves. -/
theorem C88_resolves (h : AHandler) (E : Env) (n : Nat) (ty : Nat → Str × OTy) (paths : Str → Option PathItem) (tab tab' : Table) (hc : Closed tab) (d : Documented)
    (hd : update E n ty h paths tab = .ok d tab') : Closed tab' ∧ Keeps tab tab' ∧ ∀ r ∈ Schema.propRefs d.item.ins ++ Schema.propRefs d.item.outs, Has tab' r := by
  obtain ⟨ins, t1, h1, hd⟩ := bind_isOk hd
  obtain ⟨outs, t2, h2, hd⟩ := bind_isOk hd
  injection hd with hd ht
  subst hd ht
  obtain ⟨c1, k1, r1⟩ := docFields_post E n ty _ _ _ _ _ hc (fun r hr => by cases hr) h1
  obtain ⟨c2, k2, r2⟩ := docFields_post E n ty _ _ _ _ _ c1 (fun r hr => by cases hr) h2
  refine ⟨c2, k1.trans k2, fun r hr => ?_⟩
  rcases List.mem_append.1 hr with hr | hr
  · exact k2.has (r1 r hr)
  · exact r2 r hr

/-- C88: the server keeps to it: what it accepts has every property documented as required, and a token if one is documented as required; what it answers has the documented
properties; and so has what a client sends. -/
theorem C88_kept (U : Str → Option Str) (fs : Fields) (tmpl : Option (Val X (.struct fs))) (h : AHandler) (hh : newHandler U (.ptr (.struct fs) tmpl) = some h)
    (E : Env) (n : Nat) (ty : Nat → Str × OTy) (paths : Str → Option PathItem) (tab tab' : Table) (d : Documented) (hd : update E n ty h paths tab = .ok d tab') (O : Order)
    (now : FVals X fs) :
    (∀ req obj, recv O h fs now req = .ok obj → (∀ k ∈ d.item.required, ∃ n, lookupKey k req.data = some n) ∧ (d.item.security = some true → ∃ n, req.uid = some n ∧ n ≠ .nil)) ∧
    (∀ (obj : FVals X fs) (data : List (Str × Node X)), send O fs obj h.outs [] = .ok data → ∀ k, (∃ n, lookupKey k data = some n) ↔ ∃ s, lookupKey k d.item.outs = some s) ∧
    (∀ (obj : FVals X fs) (data : List (Str × Node X)), send O fs obj h.ins [] = .ok data → ∀ k, (∃ n, lookupKey k data = some n) ↔ ∃ s, lookupKey k d.item.ins = some s) := by
  obtain ⟨d1, d2, d3, _, d5, _⟩ := C88_documented U fs tmpl h hh E n ty paths tab tab' d hd
  refine ⟨fun req obj hr => ⟨fun k hk => ?_, fun hs => ?_⟩, fun obj data hs k => ?_, fun obj data hs k => ?_⟩
  · obtain ⟨f, hf, hi, hreq, hk⟩ := (d2 k).1 hk
    obtain ⟨v1, v2, h1, h2, h3⟩ := recv_stages O h fs _ req obj hr
    have hok := (newHandler_lists U fs tmpl h hh).1
    obtain ⟨tag, ht⟩ := hok f hf
    obtain ⟨w1, w2, w3, w4, w5, w6⟩ := (C53_words U f).2 tag ht
    obtain ⟨j, t, x, hx2⟩ := info_at fs v2 hf
    obtain ⟨y, hy⟩ := at_any now hx2
    obtain ⟨z, hz⟩ := at_any (content fs tmpl) hx2
    obtain ⟨s1, s2⟩ := (stage_field U O fs tmpl h hh _ req v1 v2 h1 h2 j f t x y z hx2 hy hz tag ht).1 (w2.2 hi)
    have hne := s2 (w5.2 hreq)
    rw [w1, hk] at s1
    unfold Api.Decoded at s1
    cases hl : lookupKey k req.data with
    | some n => exact ⟨n, rfl⟩
    | none => rw [hl] at s1; exact absurd s1 hne
  · obtain ⟨f, hf, ha, hreq⟩ := d5.1 hs
    exact C50_auth_required U O fs tmpl h hh now req obj hr f hf ha hreq
  · rw [d3 k, (((C51_sent U O fs tmpl h hh obj data).1 hs k).1)]
    constructor
    · rintro ⟨j, f, t, x, hx, ho, hk⟩; exact ⟨f, at_info hx, ho, hk⟩
    · rintro ⟨f, hf, ho, hk⟩
      obtain ⟨j, t, x, hx⟩ := info_at fs obj hf
      exact ⟨j, f, t, x, hx, ho, hk⟩
  · rw [d1 k, (((C51_sent U O fs tmpl h hh obj data).2 hs k).1)]
    constructor
    · rintro ⟨j, f, t, x, hx, ho, hk⟩; exact ⟨f, at_info hx, ho, hk⟩
    · rintro ⟨f, hf, ho, hk⟩
      obtain ⟨j, t, x, hx⟩ := info_at fs obj hf
      exact ⟨j, f, t, x, hx, ho, hk⟩

theorem recvIns_congr (O : Order) (fs : Fields) (data data' : List (Str × Node X)) : ∀ (l : List HField) (v : FVals X fs),
    (∀ f ∈ l, lookupKey f.tag.name data = lookupKey f.tag.name data') → recvIns O fs data l v = recvIns O fs data' l v
  | [], _, _ => rfl
  | f :: l, v, h => by
    have hu : unmarshalField O data f.tag.name = unmarshalField O data' f.tag.name := by
      funext g t x
      unfold unmarshalField
      rw [h f (List.mem_cons_self ..)]
    rw [recvIns_cons, recvIns_cons, hu]
    congr 1
    funext u
    rw [recvIns_congr O fs data data' l u fun g hg => h g (List.mem_cons_of_mem _ hg)]

/-- C88: what is not documented has no effect: requests that agree on the documented properties, and on the identity, are received alike. -/
theorem C88_rest_ignored (fs : Fields) (h : AHandler) (E : Env) (n : Nat) (ty : Nat → Str × OTy) (paths : Str → Option PathItem) (tab tab' : Table) (d : Documented) (hd : update E n ty h paths tab = .ok d tab') (O : Order)
    (now : FVals X fs) (req req' : Req X) (hu : req.uid = req'.uid) (hk : ∀ k s, lookupKey k d.item.ins = some s → lookupKey k req.data = lookupKey k req'.data) :
    recv O h fs now req = recv O h fs now req' := by
  obtain ⟨ins, t1, h1, hd⟩ := bind_isOk hd
  obtain ⟨outs, t2, h2, hd⟩ := bind_isOk hd
  injection hd with hd _
  subst hd
  unfold recv
  congr 1
  funext v
  rw [recvIns_congr O fs req.data req'.data h.ins v fun f hf => ?_, hu]
  obtain ⟨s, hs⟩ := (docFields_keys E n ty _ _ _ _ _ h1 f.tag.name).2 (Or.inr ⟨f, hf, rfl⟩)
  exact hk _ s hs

/-! ### C87 -/

/-- What `enc` writes for the fields of a struct: each entry comes from an exported field, under the name in its tag. -/
theorem marshalFields_names (O : Order) : ∀ (fs : Fields) (vs : FVals X fs) (l : List ((Str × Str) × Node X)), marshalFields O fs vs = .ok l → ∀ e ∈ l,
    ∃ f ∈ fs.infos, f.exported = true ∧ propName f = e.1.2
  | .nil, _, l, h, e, he => by injection h with h; subst h; cases he
  | .cons f t fs, (v, vs), l, h, e, he => by
    have rest : ∀ l, marshalFields O fs vs = .ok l → e ∈ l → ∃ g ∈ (Fields.cons f t fs).infos, g.exported = true ∧ propName g = e.1.2 := by
      intro l h he
      obtain ⟨g, hg, hx⟩ := marshalFields_names O fs vs l h e he
      exact ⟨g, List.mem_cons_of_mem _ hg, hx⟩
    simp only [marshalFields] at h
    split at h
    · rename_i hex
      split at h
      · cases h
      · rename_i tag ht
        split at h
        · exact rest l h he
        · rename_i hs
          obtain ⟨n, _, h⟩ := bind_ok h
          obtain ⟨l', h', h⟩ := bind_ok h
          injection h with h
          subst h
          split at he
          · exact rest l' h' he
          · rcases List.mem_cons.1 he with rfl | he
            · refine ⟨f, List.mem_cons_self .., hex, ?_⟩
              unfold parseTag at ht
              split at ht
              · injection ht with ht; subst ht; exact absurd rfl hs
              · simp only at ht
                split at ht
                · injection ht with ht; subst ht; rfl
                · split at ht
                  · injection ht with ht; subst ht; rfl
                  · cases ht
            · exact rest l' h' he
    · exact rest l h he

/-- C87: whatever `enc` writes for a value of a struct is among the properties of its definition. What is missing is the other direction. -/
theorem C87_described_partial (O : Order) (fs : Fields) (ofs : List Field) (hf : ofs.map (·.1) = fs.infos) (s : Schema) (hd : Describes s ofs) (vs : FVals X fs)
    (l : List ((Str × Str) × Node X)) (h : marshal O (.struct fs) vs = .ok (.pairs l)) (e : (Str × Str) × Node X) (he : e ∈ l) :
    ∃ fmt ps s', s = .object fmt [] ps ∧ lookupKey e.1.2 ps = some s' := by
  obtain ⟨l', h', h⟩ := bind_ok h
  injection h with h; injection h with h; subst h
  obtain ⟨f, hf', _, hn⟩ := marshalFields_names O fs vs l' h' e he
  obtain ⟨fmt, ps, hs, hp⟩ := hd
  rw [← hf] at hf'
  obtain ⟨g, hg, rfl⟩ := List.mem_map.1 hf'
  obtain ⟨s', hs'⟩ := Option.isSome_iff_exists.1 ((hp e.1.2).2 ⟨g, hg, hn⟩)
  exact ⟨fmt, ps, s', hs, hs'⟩

/-- `type User struct { Name string; Password string "json:-"; cache string }`, for `enc` and for the schema. (An example, not in /repo; see api/openapi/schema.go L96.) -/
def userFields : Fields := .cons { name := lit "Name" } .string (.cons { name := lit "Password", tag := lit "-" } .string (.cons { name := lit "cache", exported := false } .string .nil))
/-- see `userFields` (An example, not in /repo; see api/openapi/schema.go L96.) -/
def userEnv : Env := { defs := fun _ => .struct (lit "a") (lit "User") (userFields.infos.map fun f => (f, [], .prim (lit "string") none)), str := fun _ => lit "string" }

/-- C87: unexported fields and those with the tag `-` are properties in the definition, the latter under the name `-`, but are never written. -/
theorem C87_violated (n : Nat) (O : Order) : ∃ tab fmt ps, schema userEnv (n + 2) [] (.ref 0) [] = .ok (.ref (lit "a_User") []) tab ∧ lookupKey (lit "a_User") tab = some (.object fmt [] ps) ∧
    (∃ s, lookupKey (lit "-") ps = some s) ∧ (∃ s, lookupKey (lit "cache") ps = some s) ∧
    ∀ (name pass cache : Str), marshal (X := X) O (.struct userFields) (name, pass, cache, ()) = .ok (.pairs [((lit "Name", lit "Name"), .str name)]) := by
  exact ⟨_, _, _, rfl, rfl, ⟨_, rfl⟩, ⟨_, rfl⟩, fun _ _ _ => rfl⟩

/-! ### examples -/

/-- C88: the handler `struct { Name string "in,required"; Greeting string "out" }` at a url. -/
example : ∃ h, newHandler (X := XT) (fun s => some s) (.ptr (.struct (.cons { name := lit "_", exported := false, url := lit "/hi" } (.struct .nil)
      (.cons { name := lit "Name", tag := lit "name", api := lit "in,required" } .string (.cons { name := lit "Greeting", api := lit "out" } .string .nil)))) none) = some h ∧
    ∃ d, update nodeEnv 3 (fun _ => ([], .prim (lit "string") none)) h (fun _ => none) [] = .ok d [] ∧
      d.item = ⟨[(lit "name", .leaf (lit "string") (lit "int") [])], [lit "name"], [(lit "Greeting", .leaf (lit "string") (lit "int") [])], none⟩ ∧ d.paths (lit "/hi") = some d.item :=
  ⟨_, rfl, _, rfl, rfl, rfl⟩

end Verif.Openapi

import Verif.Http.Server
import Verif.Prom.Props
/-!
# Metrics and registration of a server (C116-C118)
-/
set_option autoImplicit false
namespace Verif.Http
open Verif.Strconv Verif.Enc Verif.Prom

variable {F : Type}

/-! ### C116: every request is measured -/

/-- The code the client sees; `none`: the handler panicked. -/
def seen (E : MuxExt) (m : Mux F) (r : Req F) : Option Int := (m.serve E r).map fun a => a.1.status

/-- The handlers that do not panic send a final status code first. -/
def Proper (m : Mux F) : Prop :=
  ∀ p t, (p, t) ∈ m → ∀ r ops, t.handler r = some ops → ∃ c, firstStatus ops = some c ∧ informational c = false

/-- The request has these labels. -/
def HasLabels (E : MuxExt) (m : Mux F) (method path : GoStr) (code : Int) (r : Req F) : Prop := r.method = method ∧ r.path = path ∧ seen E m r = some code

/-- The request is answered by the handler registered by `Server.Handle` for the pattern. -/
def ByHandle (E : MuxExt) (m : Mux F) (method path : GoStr) (code : Int) (r : Req F) : Prop :=
  r.method = method ∧ seen E m r = some code ∧ E.redirect (m.map (·.1)) r.method r.path = none ∧ ∃ t, m.find r.path = some (path, t) ∧ t.measured = true

instance (E : MuxExt) (m : Mux F) (method path : GoStr) (code : Int) (r : Req F) : Decidable (HasLabels E m method path code r) := by
  unfold HasLabels; infer_instance

instance (E : MuxExt) (m : Mux F) (method path : GoStr) (code : Int) (r : Req F) : Decidable (ByHandle E m method path code r) := by
  unfold ByHandle
  have : Decidable (∃ t, m.find r.path = some (path, t) ∧ t.measured = true) :=
    match h : m.find r.path with
    | none => .isFalse fun ⟨_, h', _⟩ => by cases h'
    | some (q, t) => if hq : q = path ∧ t.measured = true then .isTrue ⟨t, by rw [hq.1], hq.2⟩
      else .isFalse fun ⟨t', h', ht⟩ => by injection h' with h'; injection h' with h1 h2; subst h1 h2; exact hq ⟨rfl, ht⟩
  infer_instance


theorem gs_inj {a b : Str} (h : gs a = gs b) : a = b := by
  unfold gs at h
  exact (List.map_inj_right (fun x y e => by injection e)).1 h

theorem labelsOf_inj {a b a' b' : GoStr} {c c' : Int} : labelsOf a b c = labelsOf a' b' c' ↔ a = a' ∧ b = b' ∧ c = c' := by
  constructor
  · intro h
    unfold labelsOf at h
    injection h with h1 h; injection h with h2 h; injection h with h3 _
    exact ⟨h1, h2, fmtInt_inj _ _ (gs_inj h3)⟩
  · rintro ⟨rfl, rfl, rfl⟩; rfl

theorem get_mem : ∀ {m : Mux F} {p : GoStr} {t : Route F}, m.get p = some t → (p, t) ∈ m
  | (q, r) :: m, p, t, h => by
    rw [Mux.get] at h
    split at h
    · rename_i hq; subst hq; injection h with h; subst h; exact List.mem_cons_self ..
    · exact List.mem_cons_of_mem _ (get_mem h)

theorem tree_spec {path : GoStr} : ∀ {m : Mux F} {q : GoStr} {t : Route F}, m.tree path = some (q, t) →
    (q, t) ∈ m ∧ isTree q = true ∧ q <+: path ∧ ∀ q' t', (q', t') ∈ m → isTree q' = true → q' <+: path → q'.length ≤ q.length
  | (p, r) :: m, q, t, h => by
    rw [Mux.tree] at h
    cases hm : Mux.tree path m with
    | none =>
      rw [hm] at h
      have hnone : ∀ q' t', (q', t') ∈ m → isTree q' = true → q' <+: path → False := by
        clear h
        induction m with
        | nil => intro _ _ h; cases h
        | cons x m ih =>
          obtain ⟨x1, x2⟩ := x
          rw [Mux.tree] at hm
          cases hm' : Mux.tree path m with
          | some y => rw [hm'] at hm; simp only at hm; split at hm <;> cases hm
          | none =>
            rw [hm'] at hm; simp only at hm
            split at hm
            · cases hm
            · rename_i hx
              intro q' t' hmem h1 h2
              rcases List.mem_cons.1 hmem with he | hmem
              · injection he with e1 _; subst e1
                exact hx (by rw [h1, List.isPrefixOf_iff_prefix.2 h2]; rfl)
              · exact ih hm' q' t' hmem h1 h2
      simp only at h
      split at h
      · rename_i hx
        rw [Bool.and_eq_true] at hx
        injection h with h; injection h with h1 h2; subst h1 h2
        refine ⟨List.mem_cons_self .., hx.1, List.isPrefixOf_iff_prefix.1 hx.2, fun q' t' hmem h1 h2 => ?_⟩
        rcases List.mem_cons.1 hmem with he | hmem
        · injection he with e1 _; subst e1; exact Nat.le_refl _
        · exact (hnone q' t' hmem h1 h2).elim
      · cases h
    | some y =>
      obtain ⟨y1, y2⟩ := y
      obtain ⟨i1, i2, i3, i4⟩ := tree_spec hm
      rw [hm] at h; simp only at h
      split at h
      · rename_i hx
        simp only [Bool.and_eq_true, decide_eq_true_eq] at hx
        injection h with h; injection h with h1 h2; subst h1 h2
        refine ⟨List.mem_cons_self .., hx.1.1, List.isPrefixOf_iff_prefix.1 hx.1.2, fun q' t' hmem h1 h2 => ?_⟩
        rcases List.mem_cons.1 hmem with he | hmem
        · injection he with e1 _; subst e1; exact Nat.le_refl _
        · exact Nat.le_trans (i4 q' t' hmem h1 h2) (Nat.le_of_lt hx.2)
      · rename_i hx
        injection h with h; injection h with h1 h2; subst h1 h2
        refine ⟨List.mem_cons_of_mem _ i1, i2, i3, fun q' t' hmem h1 h2 => ?_⟩
        rcases List.mem_cons.1 hmem with he | hmem
        · injection he with e1 _; subst e1
          simp only [Bool.and_eq_true, decide_eq_true_eq, not_and] at hx
          have := hx ⟨h1, List.isPrefixOf_iff_prefix.2 h2⟩
          omega
        · exact i4 q' t' hmem h1 h2

theorem find_mem {m : Mux F} {path p : GoStr} {t : Route F} (h : m.find path = some (p, t)) : (p, t) ∈ m := by
  unfold Mux.find at h
  split at h
  · rename_i r hr; injection h with h; injection h with h1 h2; subst h1 h2; exact get_mem hr
  · exact (tree_spec h).1

/-- One request: what it is measured as. -/
theorem serve_obs (E : MuxExt) (m : Mux F) (hp : Proper m) (r : Req F) (resp : Resp) (obs : List (List GoStr × F)) (h : m.serve E r = some (resp, obs)) :
    (obs = [(labelsOf r.method r.path resp.status, r.outer)] ∧
      ¬ (E.redirect (m.map (·.1)) r.method r.path = none ∧ ∃ p t, m.find r.path = some (p, t) ∧ t.measured = true)) ∨
    ∃ p t, E.redirect (m.map (·.1)) r.method r.path = none ∧ m.find r.path = some (p, t) ∧ t.measured = true ∧
      obs = [(labelsOf r.method p resp.status, r.inner), (labelsOf r.method r.path resp.status, r.outer)] := by
  have plain : ∀ ops c, firstStatus ops = some c → informational c = false →
      ((Http.serve ops).map fun a => (a.1, [(labelsOf r.method r.path a.2, r.outer)])) = some (resp, obs) → obs = [(labelsOf r.method r.path resp.status, r.outer)] := by
    intro ops c hf hi h
    obtain ⟨⟨w, k⟩, hw, he⟩ := Option.map_eq_some_iff.1 h
    injection he with e1 e2; subst e1 e2
    obtain ⟨h1, h2, _⟩ := C58_measured_partial ops c hf hi w k hw
    rw [h1, h2]
  unfold Mux.serve at h
  simp only at h
  cases hr : E.redirect (m.map (·.1)) r.method r.path with
  | some lb =>
    obtain ⟨l, b⟩ := lb
    rw [hr] at h
    exact Or.inl ⟨plain _ 301 rfl rfl h, fun hn => by cases hn.1⟩
  | none =>
    rw [hr] at h; simp only at h
    cases hf : m.find r.path with
    | none =>
      rw [hf] at h
      exact Or.inl ⟨plain _ 404 rfl rfl h, fun hn => by obtain ⟨_, _, _, hn, _⟩ := hn; cases hn⟩
    | some pt =>
      obtain ⟨p, t⟩ := pt
      rw [hf] at h; simp only at h
      cases ho : t.handler r with
      | none => rw [ho] at h; cases h
      | some ops =>
        rw [ho] at h; simp only at h
        obtain ⟨c, hc, hi⟩ := hp p t (find_mem hf) r ops ho
        split at h
        · rename_i hmeas
          refine Or.inr ⟨p, t, rfl, rfl, hmeas, ?_⟩
          rw [C58_nested, Option.map_map] at h
          obtain ⟨⟨w, k⟩, hw, he⟩ := Option.map_eq_some_iff.1 h
          injection he with e1 e2; subst e1 e2
          obtain ⟨h1, h2, _⟩ := C58_measured_partial ops c hc hi w k hw
          rw [h1, h2]
        · rename_i hmeas
          exact Or.inl ⟨plain _ c hc hi h, fun hn => by obtain ⟨_, p', t', h1, h2⟩ := hn; injection h1 with h1; injection h1 with h3 h4; subst h3 h4; exact hmeas h2⟩

/-- The observations of one request under given labels. -/
theorem under_one (E : MuxExt) (m : Mux F) (hp : Proper m) (r : Req F) (method path : GoStr) (code : Int) :
    (under (labelsOf method path code) (observations E m [r])).length =
      (if HasLabels E m method path code r then 1 else 0) + (if ByHandle E m method path code r then 1 else 0) := by
  simp only [observations, List.flatMap_cons, List.flatMap_nil, List.append_nil]
  cases hs : m.serve E r with
  | none => simp [under, HasLabels, ByHandle, seen, hs]
  | some a =>
    obtain ⟨resp, obs⟩ := a
    have hl : HasLabels E m method path code r ↔ labelsOf r.method r.path resp.status = labelsOf method path code := by
      rw [labelsOf_inj]; simp [HasLabels, seen, hs]
    rcases serve_obs E m hp r resp obs hs with ⟨rfl, hn⟩ | ⟨p, t, h1, h2, h3, rfl⟩
    · have hb : ¬ ByHandle E m method path code r := fun ⟨_, _, h1, t, h2, h3⟩ => hn ⟨h1, path, t, h2, h3⟩
      simp only [hb, if_false, under, hl]
      by_cases hh : labelsOf r.method r.path resp.status = labelsOf method path code <;> simp [hh]
    · have hb : ByHandle E m method path code r ↔ labelsOf r.method p resp.status = labelsOf method path code := by
        rw [labelsOf_inj]
        constructor
        · rintro ⟨e1, e2, _, t', e3, _⟩
          rw [h2] at e3; injection e3 with e3; injection e3 with e3 _
          simp only [seen, hs, Option.map_some, Option.some.injEq] at e2
          exact ⟨e1, e3, e2⟩
        · rintro ⟨e1, e2, e3⟩
          subst e2
          exact ⟨e1, by simp [seen, hs, e3], h1, t, h2, h3⟩
      simp only [under, hl, hb]
      by_cases hh : labelsOf r.method r.path resp.status = labelsOf method path code <;>
      by_cases hg : labelsOf r.method p resp.status = labelsOf method path code <;> simp [hh, hg]

theorem under_count (E : MuxExt) (m : Mux F) (hp : Proper m) (method path : GoStr) (code : Int) : ∀ reqs : List (Req F),
    (under (labelsOf method path code) (observations E m reqs)).length =
      reqs.countP (fun r => HasLabels E m method path code r) + reqs.countP (fun r => ByHandle E m method path code r)
  | [] => rfl
  | r :: l => by
    have h : observations E m (r :: l) = observations E m [r] ++ observations E m l := by simp [observations]
    rw [h]
    have ha : ∀ a b : List (List GoStr × F), (under (labelsOf method path code) (a ++ b)).length =
      (under (labelsOf method path code) a).length + (under (labelsOf method path code) b).length := by intro a b; simp [under]
    rw [ha, under_one E m hp, under_count E m hp method path code l, List.countP_cons, List.countP_cons]
    simp only [decide_eq_true_eq]
    omega

theorem obs_arity (E : MuxExt) (m : Mux F) (reqs : List (Req F)) : ∀ o ∈ observations E m reqs, o.1.length = labelNames.length := by
  intro o ho
  obtain ⟨r, _, ho⟩ := List.mem_flatMap.1 ho
  cases hs : m.serve E r with
  | none => rw [hs] at ho; cases ho
  | some a =>
    rw [hs] at ho
    obtain ⟨resp, obs⟩ := a
    have plain : ∀ ops, ((Http.serve ops).map fun a => (a.1, [(labelsOf r.method r.path a.2, r.outer)])) = some (resp, obs) → o.1.length = labelNames.length := by
      intro ops h
      obtain ⟨w, _, he⟩ := Option.map_eq_some_iff.1 h
      injection he with _ e2; subst e2
      rw [List.mem_singleton.1 ho]; rfl
    unfold Mux.serve at hs
    simp only at hs
    split at hs
    · exact plain _ hs
    · split at hs
      · exact plain _ hs
      · split at hs
        · cases hs
        · split at hs
          · obtain ⟨w, _, he⟩ := Option.map_eq_some_iff.1 hs
            injection he with _ e2; subst e2
            simp only [List.mem_cons, List.not_mem_nil, or_false] at ho
            rcases ho with rfl | rfl <;> rfl
          · exact plain _ hs

/-- No redirects. -/
def noRedirect : MuxExt := ⟨fun _ _ _ => none⟩

/-- A server with a handler registered by `Handle`, one by `HandleRequest` below it, and one that panics. -/
def demo : Server Nat := registerAll
  [.handle (gs (lit "/h")) (fun _ => some [.write [1]]), .request (gs (lit "/h/")) (fun _ => some [.header 204]), .call (gs (lit "/p")) (fun _ => none),
   .api [gs (lit "/q"), gs (lit "/live")] (fun _ => some [.header 200]) .ok]
  (newServer (fun _ => 204) (fun _ => some [.header 200]))

/-- A request. -/
def get (p : String) : Req Nat := { method := gs (lit "GET"), path := gs (lit p), inner := 1, outer := 2 }

/-- The count under some labels after some requests to that server. -/
def counted (reqs : List (Req Nat)) (k : String) : Go (Option Nat) := do
  let M ← metrics natOps asciiPrint [1, 5] noRedirect demo.mux reqs
  match M (lit k) with
  | some t => do let p ← t.print [1, 5]; .ok (some p.count)
  | none => .ok none

/-- C116: whatever the requests, the metrics never panic; the series of a method, a path and a code counts the requests for them that were answered with that code, and once
more those that a handler registered by `Handle` for that path as pattern answered. -/
theorem C116_count (fo : FloatOps F) (isPrint : Char → Bool) (les : List F) (E : MuxExt) (m : Mux F) (hp : Proper m) (reqs : List (Req F)) :
    ∃ M, metrics fo isPrint les E m reqs = .ok M ∧ ∀ method path code k, stringify isPrint labelNames (labelsOf method path code) = .ok k →
      let n := reqs.countP (fun r => HasLabels E m method path code r) + reqs.countP (fun r => ByHandle E m method path code r)
      (n = 0 → M k = none) ∧ (n ≠ 0 → ∃ t pr, M k = some t ∧ t.print les = .ok pr ∧ pr.count = n ∧ pr.inf = n) := by
  obtain ⟨M, hM, hk⟩ := C27_histogram fo isPrint labelNames les (observations E m reqs) (obs_arity E m reqs)
  refine ⟨M, hM, fun method path code k hs => ?_⟩
  have hc := under_count E m hp method path code reqs
  refine ⟨fun h => (hk _ k hs).1 (List.length_eq_zero_iff.1 (by omega)), fun h => ?_⟩
  obtain ⟨t, ht, hpr⟩ := (hk _ k hs).2 (fun h' => by rw [h'] at hc; simp at hc; omega)
  exact ⟨t, _, ht, hpr, hc, hc⟩


/-- Of three requests below `/h/` one has another path. -/
example : counted [get "/h/x", get "/h/y", get "/h/x"] "method=\"GET\",path=\"/h/x\",code=\"204\"" = .ok (some 2) ∧
    counted [get "/h/x", get "/h/y", get "/h/x"] "method=\"GET\",path=\"/h/x\",code=\"200\"" = .ok none := by decide +kernel

/-- C116 (partial): if no handler was registered by `Handle` (they were registered by `HandleRequest`, `RegisterAPI`, `CallHandler`, …), each series counts exactly the requests
with its labels that were answered. Missing: handlers registered by `Handle`, and handlers that panic, or send no final status code (C58). -/
theorem C116_partial (fo : FloatOps F) (isPrint : Char → Bool) (les : List F) (E : MuxExt) (m : Mux F) (hp : Proper m) (hm : ∀ p t, (p, t) ∈ m → t.measured = false)
    (reqs : List (Req F)) : ∃ M, metrics fo isPrint les E m reqs = .ok M ∧ ∀ method path code k, stringify isPrint labelNames (labelsOf method path code) = .ok k →
      let n := reqs.countP (fun r => HasLabels E m method path code r)
      (n = 0 → M k = none) ∧ (n ≠ 0 → ∃ t pr, M k = some t ∧ t.print les = .ok pr ∧ pr.count = n) := by
  obtain ⟨M, hM, hk⟩ := C116_count fo isPrint les E m hp reqs
  refine ⟨M, hM, fun method path code k hs => ?_⟩
  have h0 : reqs.countP (fun r => ByHandle E m method path code r) = 0 := by
    rw [List.countP_eq_zero]
    intro r _ hb
    obtain ⟨_, _, _, t, h1, h2⟩ := of_decide_eq_true hb
    rw [hm _ _ (find_mem h1)] at h2; cases h2
  have := hk method path code k hs
  simp only [h0, Nat.add_zero] at this
  exact ⟨this.1, fun h => by obtain ⟨t, pr, h1, h2, h3, _⟩ := this.2 h; exact ⟨t, pr, h1, h2, h3⟩⟩

example : counted [get "/z", get "/live"] "method=\"GET\",path=\"/z\",code=\"404\"" = .ok (some 1) ∧ counted [get "/live"] "method=\"GET\",path=\"/live\",code=\"204\"" = .ok (some 1) := by decide +kernel

/-- C116 (violated): requests for a path that a handler was registered for by `Handle` are counted twice: after `n` of them the series says `2 * n`. -/
theorem C116_twice_violated (fo : FloatOps F) (isPrint : Char → Bool) (les : List F) (E : MuxExt) (m : Mux F) (hp : Proper m) (method path : GoStr) (code : Int) (t : Route F)
    (ht : m.get path = some t) (hm : t.measured = true) (reqs : List (Req F)) (hne : reqs ≠ [])
    (hr : ∀ r ∈ reqs, r.method = method ∧ r.path = path ∧ E.redirect (m.map (·.1)) method path = none ∧ seen E m r = some code)
    (k : Str) (hk : stringify isPrint labelNames (labelsOf method path code) = .ok k) :
    ∃ M s pr, metrics fo isPrint les E m reqs = .ok M ∧ M k = some s ∧ s.print les = .ok pr ∧ pr.count = 2 * reqs.length := by
  obtain ⟨M, hM, h⟩ := C116_count fo isPrint les E m hp reqs
  have h1 : reqs.countP (fun r => HasLabels E m method path code r) = reqs.length := by
    rw [List.countP_eq_length]
    intro r h
    obtain ⟨a, b, _, d⟩ := hr r h
    exact decide_eq_true ⟨a, b, d⟩
  have h2 : reqs.countP (fun r => ByHandle E m method path code r) = reqs.length := by
    rw [List.countP_eq_length]
    intro r h
    obtain ⟨a, b, c, d⟩ := hr r h
    exact decide_eq_true ⟨a, d, by rw [a, b]; exact c, t, by rw [b]; simp only [Mux.find, ht], hm⟩
  have h3 := (h method path code k hk).2
  simp only [h1, h2] at h3
  have h4 : reqs.length ≠ 0 := fun h => hne (List.length_eq_zero_iff.1 h)
  obtain ⟨s, pr, e1, e2, e3, _⟩ := h3 (by omega)
  exact ⟨M, s, pr, hM, e1, e2, by omega⟩

example : counted [get "/h", get "/h", get "/h"] "method=\"GET\",path=\"/h\",code=\"200\"" = .ok (some 6) := by decide +kernel

/-- C116 (violated): a request whose handler panics is not measured at all, wherever it comes in the sequence. -/
theorem C116_panic_violated (fo : FloatOps F) (isPrint : Char → Bool) (les : List F) (E : MuxExt) (m : Mux F) (r : Req F) (p : GoStr) (t : Route F)
    (he : E.redirect (m.map (·.1)) r.method r.path = none) (hf : m.find r.path = some (p, t)) (hh : t.handler r = none) (before after : List (Req F)) :
    metrics fo isPrint les E m (before ++ r :: after) = metrics fo isPrint les E m (before ++ after) := by
  have h : m.serve E r = none := by simp only [Mux.serve, he, hf, hh]
  simp [metrics, observations, h]

example : observations noRedirect demo.mux [get "/p", get "/p"] = [] ∧ (observations noRedirect demo.mux [get "/p", get "/z"]).length = 1 := by decide +kernel

/-! ### C117: the number of series -/

/-- The paths `/`, `/x`, `/xx`, … -/
def longPath (i : Nat) : GoStr := gs ('/' :: List.replicate i 'x')

theorem longPath_inj {i j : Nat} (h : longPath i = longPath j) : i = j := by
  have := congrArg List.length (gs_inj h)
  simpa using this

theorem under_asked (E : MuxExt) (m : Mux F) (reqs : List (Req F)) (r : Req F) (hr : r ∈ reqs) (hs : m.serve E r ≠ none) :
    ∃ c, under (labelsOf r.method r.path c) (observations E m reqs) ≠ [] := by
  obtain ⟨⟨resp, obs⟩, hs⟩ := Option.ne_none_iff_exists'.1 hs
  have plain : ∀ ops, ((Http.serve ops).map fun a => (a.1, [(labelsOf r.method r.path a.2, r.outer)])) = some (resp, obs) → ∃ c, (labelsOf r.method r.path c, r.outer) ∈ obs := by
    intro ops h
    obtain ⟨w, _, he⟩ := Option.map_eq_some_iff.1 h
    injection he with _ e2; subst e2
    exact ⟨_, List.mem_singleton.2 rfl⟩
  have hex : ∃ c, (labelsOf r.method r.path c, r.outer) ∈ obs := by
    have hs' := hs
    unfold Mux.serve at hs'
    simp only at hs'
    split at hs'
    · exact plain _ hs'
    · split at hs'
      · exact plain _ hs'
      · split at hs'
        · cases hs'
        · split at hs'
          · obtain ⟨w, _, he⟩ := Option.map_eq_some_iff.1 hs'
            injection he with _ e2; subst e2
            exact ⟨_, List.mem_cons_of_mem _ (List.mem_singleton.2 rfl)⟩
          · exact plain _ hs'
  obtain ⟨c, hc⟩ := hex
  refine ⟨c, fun h => ?_⟩
  have hmem : (labelsOf r.method r.path c, r.outer) ∈ observations E m reqs := List.mem_flatMap.2 ⟨r, hr, by rw [hs]; exact hc⟩
  have : r.outer ∈ under (labelsOf r.method r.path c) (observations E m reqs) :=
    List.mem_map.2 ⟨_, List.mem_filter.2 ⟨hmem, by simp⟩, rfl⟩
  rw [h] at this; cases this

/-- C117 (violated): clients choose how many series there are: as long as requests are answered, whatever the server, for every `n` there are `n` requests (for paths nobody
registered, if they like) that make `n` different series. -/
theorem C117_violated (fo : FloatOps F) (isPrint : Char → Bool) (les : List F) (E : MuxExt) (m : Mux F) (d : F)
    (ha : ∀ r : Req F, m.serve E r ≠ none) (n : Nat) :
    ∃ (reqs : List (Req F)) (M : LMap (TS F)) (ks : List Str), reqs.length = n ∧ metrics fo isPrint les E m reqs = .ok M ∧ ks.length = n ∧ ks.Nodup ∧ ∀ k ∈ ks, ∃ t, M k = some t := by
  let req : Nat → Req F := fun i => { method := gs (lit "GET"), path := longPath i, inner := d, outer := d }
  let reqs := (List.range n).map req
  obtain ⟨M, hM, hk⟩ := C27_histogram fo isPrint labelNames les (observations E m reqs) (obs_arity E m reqs)
  have h : ∀ i, ∃ c k, stringify isPrint labelNames (labelsOf (gs (lit "GET")) (longPath i) c) = .ok k ∧ (i < n → ∃ t, M k = some t) := by
    intro i
    by_cases hi : i < n
    · obtain ⟨c, hc⟩ := under_asked E m reqs (req i) (List.mem_map.2 ⟨i, List.mem_range.2 hi, rfl⟩) (ha _)
      obtain ⟨k, hs⟩ := (C26_arity isPrint labelNames (labelsOf (gs (lit "GET")) (longPath i) c)).2.2 rfl
      exact ⟨c, k, hs, fun _ => by obtain ⟨t, h1, _⟩ := (hk _ k hs).2 hc; exact ⟨t, h1⟩⟩
    · obtain ⟨k, hs⟩ := (C26_arity isPrint labelNames (labelsOf (gs (lit "GET")) (longPath i) 0)).2.2 rfl
      exact ⟨0, k, hs, fun h => absurd h hi⟩
  let code := fun i => (h i).choose
  let key := fun i => (h i).choose_spec.choose
  have hspec := fun i => (h i).choose_spec.choose_spec
  refine ⟨reqs, M, (List.range n).map key, by simp [reqs], hM, by simp, ?_, ?_⟩
  · rw [List.nodup_iff_pairwise_ne, List.pairwise_map]
    refine List.nodup_range.imp ?_
    intro i j hne he
    have h1 := (hspec i).1; have h2 := (hspec j).1
    have he : (h i).choose_spec.choose = (h j).choose_spec.choose := he
    rw [he] at h1
    have := (C26_injective isPrint labelNames _ _ rfl rfl).1 (h1.trans h2.symm)
    exact hne (longPath_inj (labelsOf_inj.1 this).2.1)
  · intro k hk'
    obtain ⟨i, hi, rfl⟩ := List.mem_map.1 hk'
    exact (hspec i).2 (List.mem_range.1 hi)

example : (observations noRedirect demo.mux [get "/a", get "/b", get "/c"]).map (·.1) = [labelsOf (gs (lit "GET")) (gs (lit "/a")) 404, labelsOf (gs (lit "GET")) (gs (lit "/b")) 404, labelsOf (gs (lit "GET")) (gs (lit "/c")) 404] := by
  decide +kernel

/-- C117 (partial): there is a series for nothing but what was asked for and answered: each is that of a method, code and path of an answered request, or of the pattern that
served it. -/
theorem C117_partial (fo : FloatOps F) (isPrint : Char → Bool) (les : List F) (E : MuxExt) (m : Mux F) (hp : Proper m) (reqs : List (Req F)) (M : LMap (TS F))
    (hM : metrics fo isPrint les E m reqs = .ok M) (method path : GoStr) (code : Int) (k : Str) (hk : stringify isPrint labelNames (labelsOf method path code) = .ok k) :
    (∃ t, M k = some t) ↔ ∃ r ∈ reqs, HasLabels E m method path code r ∨ ByHandle E m method path code r := by
  obtain ⟨M', hM', h⟩ := C116_count fo isPrint les E m hp reqs
  rw [hM] at hM'; injection hM' with e; subst e
  have hn := h method path code k hk
  simp only at hn
  constructor
  · rintro ⟨t, ht⟩
    refine Classical.byContradiction fun hno => ?_
    have h1 : reqs.countP (fun r => HasLabels E m method path code r) = 0 :=
      List.countP_eq_zero.2 fun r hr hb => hno ⟨r, hr, Or.inl (of_decide_eq_true hb)⟩
    have h2 : reqs.countP (fun r => ByHandle E m method path code r) = 0 :=
      List.countP_eq_zero.2 fun r hr hb => hno ⟨r, hr, Or.inr (of_decide_eq_true hb)⟩
    rw [hn.1 (by omega)] at ht; cases ht
  · rintro ⟨r, hr, hb⟩
    have : reqs.countP (fun r => HasLabels E m method path code r) + reqs.countP (fun r => ByHandle E m method path code r) ≠ 0 := by
      rcases hb with hb | hb
      · have := List.countP_pos_iff (p := fun r => decide (HasLabels E m method path code r)).2 ⟨r, hr, decide_eq_true hb⟩; omega
      · have := List.countP_pos_iff (p := fun r => decide (ByHandle E m method path code r)).2 ⟨r, hr, decide_eq_true hb⟩; omega
    obtain ⟨t, _, ht, _⟩ := hn.2 this
    exact ⟨t, ht⟩

example : counted [get "/h"] "method=\"GET\",path=\"/h/x\",code=\"204\"" = .ok none ∧ counted [get "/h", get "/h/x"] "method=\"GET\",path=\"/h/x\",code=\"204\"" = .ok (some 1) := by decide +kernel

/-! ### C118: registration -/

theorem get_append : ∀ (m m' : Mux F) (p : GoStr), (m ++ m').get p = match m.get p with | some r => some r | none => m'.get p
  | [], _, _ => rfl
  | (q, r) :: m, m', p => by
    rw [List.cons_append, Mux.get, Mux.get]
    split
    · rfl
    · exact get_append m m' p

/-- Registering a pattern fails iff it is empty or taken; otherwise it and nothing else is added. -/
theorem add_spec (m : Mux F) (p : GoStr) (r : Route F) :
    (m.add p r = .error .explicit ↔ p = [] ∨ ∃ t, m.get p = some t) ∧
    ∀ m', m.add p r = .ok m' → p ≠ [] ∧ m.get p = none ∧ ∀ q, m'.get q = if q = p then some r else m.get q := by
  unfold Mux.add
  by_cases hp : p = []
  · rw [if_pos hp]
    exact ⟨⟨fun _ => Or.inl hp, fun _ => rfl⟩, fun m' h => by cases h⟩
  · rw [if_neg hp]
    cases hg : m.get p with
    | some t => exact ⟨⟨fun _ => Or.inr ⟨t, rfl⟩, fun _ => rfl⟩, fun m' h => by cases h⟩
    | none =>
      refine ⟨⟨(fun h => by cases h), fun h => ?_⟩, fun m' h => ?_⟩
      · rcases h with h | ⟨t, h⟩
        · exact absurd h hp
        · cases h
      · injection h with h; subst h
        refine ⟨hp, rfl, fun q => ?_⟩
        rw [get_append]
        by_cases hq : q = p
        · subst hq; rw [hg, if_pos rfl]; simp [Mux.get]
        · rw [if_neg hq]
          have : Mux.get [(p, r)] q = none := by simp [Mux.get, Ne.symm hq]
          rw [this]
          cases m.get q <;> rfl

theorem add_cases (m : Mux F) (p : GoStr) (r : Route F) : m.add p r = .error .explicit ∨ ∃ m', m.add p r = .ok m' := by
  unfold Mux.add
  split
  · exact Or.inl rfl
  · split
    · exact Or.inl rfl
    · exact Or.inr ⟨_, rfl⟩

/-- The paths can all be registered: none is empty or taken, or comes twice. -/
def Free (m : Mux F) (l : List GoStr) : Prop := l.Nodup ∧ ∀ p ∈ l, p ≠ [] ∧ m.get p = none

theorem addAll_spec (r : Route F) : ∀ (l : List GoStr) (m : Mux F),
    (Free m l → (addAll r l m).2 = .ok ∧ ∀ q, (addAll r l m).1.get q = if q ∈ l then some r else m.get q) ∧
    (¬ Free m l → (addAll r l m).2 = .panic) ∧
    ∀ q t, m.get q = some t → (addAll r l m).1.get q = some t
  | [], m => ⟨fun _ => ⟨rfl, fun q => by simp [addAll]⟩, fun h => absurd ⟨List.nodup_nil, fun p hp => by cases hp⟩ h, fun q t h => h⟩
  | p :: l, m => by
    rw [addAll]
    obtain ⟨a1, a2⟩ := add_spec m p r
    rcases add_cases m p r with he | ⟨m', he⟩
    · rw [he]
      refine ⟨fun hf => ?_, fun _ => rfl, fun q t h => h⟩
      have := hf.2 p (List.mem_cons_self ..)
      rcases a1.1 he with h | ⟨t, h⟩
      · exact absurd h this.1
      · rw [this.2] at h; cases h
    · rw [he]
      obtain ⟨b1, b2, b3⟩ := a2 m' he
      obtain ⟨i1, i2, i3⟩ := addAll_spec r l m'
      have hfree : Free m' l ↔ Free m (p :: l) := by
        constructor
        · rintro ⟨h1, h2⟩
          have hp : p ∉ l := fun h => by
            have := (h2 p h).2
            rw [b3, if_pos rfl] at this; cases this
          refine ⟨List.nodup_cons.2 ⟨hp, h1⟩, fun q hq => ?_⟩
          rcases List.mem_cons.1 hq with rfl | hq
          · exact ⟨b1, b2⟩
          · have hqp : q ≠ p := fun e => hp (e ▸ hq)
            have := h2 q hq
            rw [b3, if_neg hqp] at this
            exact this
        · rintro ⟨h1, h2⟩
          rw [List.nodup_cons] at h1
          refine ⟨h1.2, fun q hq => ?_⟩
          have hqp : q ≠ p := fun e => h1.1 (e ▸ hq)
          rw [b3, if_neg hqp]
          exact h2 q (List.mem_cons_of_mem _ hq)
      refine ⟨fun hf => ?_, fun hf => i2 fun h => hf (hfree.1 h), fun q t h => ?_⟩
      · obtain ⟨j1, j2⟩ := i1 (hfree.2 hf)
        refine ⟨j1, fun q => ?_⟩
        show (addAll r l m').1.get q = _
        rw [j2 q, b3 q]
        by_cases hq : q = p
        · subst hq; simp
        · simp [hq]
      · refine i3 q t ?_
        rw [b3]
        rw [if_neg fun e => by subst e; rw [b2] at h; cases h]
        exact h

/-- The patterns a call registers. -/
def Call.paths : Call F → List GoStr
  | .handle p _ => [p]
  | .request p _ => [p]
  | .api urls _ _ => urls
  | .call p _ => [p]
  | .prometheus p _ => [if p = [] then gs (lit "/metrics") else p]
  | .monitoring pfx _ => monitored.map fun p => pfx ++ gs p

/-- The handler a call registers. -/
def Call.handler : Call F → Handler F
  | .handle _ h => h
  | .request _ h => h
  | .api _ h _ => h
  | .call _ h => h
  | .prometheus _ h => h
  | .monitoring _ h => h

theorem free_one (m : Mux F) (p : GoStr) : Free m [p] ↔ p ≠ [] ∧ m.get p = none := by
  constructor
  · intro h; exact h.2 p (List.mem_singleton.2 rfl)
  · intro h; exact ⟨by simp, fun q hq => by rw [List.mem_singleton.1 hq]; exact h⟩

theorem docOf_fold (urls : List GoStr) (d : Doc) : ∀ (docs : List (GoStr × Doc)) (p : GoStr),
    docOf (urls.foldl (fun l u => setDoc l u d) docs) p = if p ∈ urls then some d else docOf docs p := by
  induction urls with
  | nil => intro docs p; simp
  | cons u l ih =>
    intro docs p
    rw [List.foldl_cons, ih]
    by_cases h1 : p ∈ l
    · simp [h1]
    · rw [if_neg h1]
      by_cases h2 : p = u
      · subst h2; simp [setDoc, docOf]
      · simp [setDoc, docOf, h1, h2, Ne.symm h2]

/-- A call that registers its paths: they lead to its handler, and the others to what they did. -/
theorem register_routes (s : Server F) (c : Call F) (hf : Free s.mux c.paths) :
    (∃ b, ∀ q, (register s c).1.mux.get q = if q ∈ c.paths then some ⟨c.handler, b⟩ else s.mux.get q) ∧ ((∀ urls h d, c ≠ .api urls h d) → (register s c).2 = .ok) := by
  have one : ∀ p (r : Route F), Free s.mux [p] → ∃ m', s.mux.add p r = .ok m' ∧ ∀ q, m'.get q = if q ∈ [p] then some r else s.mux.get q := by
    intro p r hf
    rw [free_one] at hf
    rcases add_cases s.mux p r with he | ⟨m', he⟩
    · rcases (add_spec s.mux p r).1.1 he with h | ⟨t, h⟩
      · exact absurd h hf.1
      · rw [hf.2] at h; cases h
    · exact ⟨m', he, fun q => by rw [((add_spec s.mux p r).2 m' he).2.2 q]; simp⟩
  cases c with
  | handle p h =>
    obtain ⟨m', h1, h2⟩ := one p ⟨h, true⟩ hf
    simp only [register, h1]
    exact ⟨⟨true, h2⟩, fun _ => trivial⟩
  | request p h =>
    obtain ⟨m', h1, h2⟩ := one p ⟨h, false⟩ hf
    simp only [register, h1]
    exact ⟨⟨false, h2⟩, fun _ => trivial⟩
  | call p h =>
    obtain ⟨m', h1, h2⟩ := one p ⟨h, false⟩ hf
    simp only [register, h1]
    exact ⟨⟨false, h2⟩, fun _ => trivial⟩
  | prometheus p h =>
    obtain ⟨m', h1, h2⟩ := one (if p = [] then gs (lit "/metrics") else p) ⟨h, false⟩ hf
    simp only [register, h1]
    exact ⟨⟨false, h2⟩, fun _ => trivial⟩
  | monitoring pfx h =>
    obtain ⟨h1, h2⟩ := (addAll_spec ⟨h, false⟩ _ s.mux).1 hf
    exact ⟨⟨false, h2⟩, fun _ => h1⟩
  | api urls h d =>
    refine ⟨⟨false, ?_⟩, fun hn => absurd rfl (hn _ _ _)⟩
    obtain ⟨h1, h2⟩ := (addAll_spec ⟨h, false⟩ _ s.mux).1 hf
    obtain ⟨⟨m', o⟩, hm⟩ : ∃ o, addAll ⟨h, false⟩ urls s.mux = o := ⟨_, rfl⟩
    simp only [Call.paths] at h1 h2
    rw [hm] at h1 h2
    simp only at h1; subst h1
    intro q
    have : (register s (.api urls h d)).1.mux.get q = m'.get q := by
      simp only [register]
      split
      · rename_i hu; subst hu
        simp only [addAll, Prod.mk.injEq] at hm
        rw [hm.1]
      · rw [hm]; simp only
        split <;> rfl
    rw [this]; exact h2 q

/-- C118: a registration panics iff one of its paths is empty, taken, or comes twice (or describing the API does); otherwise each of its paths leads to its handler from then on
and every other path leads where it did. -/
theorem C118_registers (s : Server F) (c : Call F) :
    (Free s.mux c.paths → ∀ p ∈ c.paths, ∃ t, (register s c).1.mux.get p = some t ∧ t.handler = c.handler) ∧
    (Free s.mux c.paths → ∀ p, p ∉ c.paths → (register s c).1.mux.get p = s.mux.get p) ∧
    (¬ Free s.mux c.paths → (register s c).2 = .panic) ∧
    ((∀ urls h d, c ≠ .api urls h d) → Free s.mux c.paths → (register s c).2 = .ok) := by
  refine ⟨fun hf p hp => ?_, fun hf p hp => ?_, fun hf => ?_, fun hn hf => (register_routes s c hf).2 hn⟩
  · obtain ⟨b, h⟩ := (register_routes s c hf).1
    exact ⟨_, by rw [h p, if_pos hp], rfl⟩
  · obtain ⟨b, h⟩ := (register_routes s c hf).1
    rw [h p, if_neg hp]
  · have one : ∀ p (r : Route F), ¬ Free s.mux [p] → s.mux.add p r = .error .explicit := by
      intro p r hf
      rw [free_one] at hf
      refine (add_spec s.mux p r).1.2 ?_
      by_cases hp : p = []
      · exact Or.inl hp
      · right
        cases hg : s.mux.get p with
        | none => exact absurd ⟨hp, hg⟩ hf
        | some t => exact ⟨t, rfl⟩
    cases c with
    | handle p h => simp only [register, one p ⟨h, true⟩ hf]
    | request p h => simp only [register, one p ⟨h, false⟩ hf]
    | call p h => simp only [register, one p ⟨h, false⟩ hf]
    | prometheus p h => simp only [register, one (if p = [] then gs (lit "/metrics") else p) ⟨h, false⟩ hf]
    | monitoring pfx h => exact (addAll_spec ⟨h, false⟩ _ s.mux).2.1 hf
    | api urls h d =>
      have hp := (addAll_spec ⟨h, false⟩ urls s.mux).2.1 hf
      have hu : urls ≠ [] := fun e => by subst e; exact hf ⟨List.nodup_nil, fun p hp => by cases hp⟩
      obtain ⟨⟨m', o⟩, hm⟩ : ∃ o, addAll ⟨h, false⟩ urls s.mux = o := ⟨_, rfl⟩
      rw [hm] at hp; simp only at hp; subst hp
      simp only [register, hu, if_false, hm]

example : ((register demo (.call (gs (lit "/new")) (fun _ => none))).2 matches .ok) = true ∧ ((register demo (.call (gs (lit "/h")) (fun _ => none))).2 matches .panic) = true ∧
    ((register demo (.call [] (fun _ => none))).2 matches .panic) = true := by decide +kernel

/-- Nothing a registration does changes where a path leads. -/
theorem register_kept (s : Server F) (c : Call F) (q : GoStr) (t : Route F) (h : s.mux.get q = some t) : (register s c).1.mux.get q = some t := by
  have one : ∀ p r m', s.mux.add p r = .ok m' → m'.get q = some t := by
    intro p r m' he
    obtain ⟨_, b2, b3⟩ := (add_spec s.mux p r).2 m' he
    rw [b3, if_neg fun e => by subst e; rw [b2] at h; cases h]
    exact h
  cases c with
  | handle p k =>
    rcases add_cases s.mux p ⟨k, true⟩ with he | ⟨m', he⟩
    · simpa only [register, he] using h
    · simpa only [register, he] using one _ _ _ he
  | request p k =>
    rcases add_cases s.mux p ⟨k, false⟩ with he | ⟨m', he⟩
    · simpa only [register, he] using h
    · simpa only [register, he] using one _ _ _ he
  | call p k =>
    rcases add_cases s.mux p ⟨k, false⟩ with he | ⟨m', he⟩
    · simpa only [register, he] using h
    · simpa only [register, he] using one _ _ _ he
  | prometheus p k =>
    rcases add_cases s.mux (if p = [] then gs (lit "/metrics") else p) ⟨k, false⟩ with he | ⟨m', he⟩
    · simpa only [register, he] using h
    · simpa only [register, he] using one _ _ _ he
  | monitoring pfx k => exact (addAll_spec ⟨k, false⟩ _ s.mux).2.2 q t h
  | api urls k d =>
    have hk := (addAll_spec ⟨k, false⟩ urls s.mux).2.2 q t h
    obtain ⟨⟨m', o⟩, hm⟩ : ∃ o, addAll ⟨k, false⟩ urls s.mux = o := ⟨_, rfl⟩
    rw [hm] at hk
    simp only [register]
    split
    · exact h
    · rw [hm]
      cases o with
      | ok => simp only; split <;> exact hk
      | err => exact hk
      | panic => exact hk

/-- C118: whatever is registered later, and however it ends, a path keeps leading to the handler it was first registered for. -/
theorem C118_kept (q : GoStr) (t : Route F) : ∀ (calls : List (Call F)) (s : Server F), s.mux.get q = some t → (registerAll calls s).mux.get q = some t
  | [], _, h => h
  | c :: l, s, h => C118_kept q t l _ (register_kept s c q t h)

example : ((registerAll [.handle (gs (lit "/h")) (fun _ => none), .request (gs (lit "/z")) (fun _ => none)] demo).mux.get (gs (lit "/h"))).map (fun t => (t.handler (get "/h"), t.measured)) = some (some [.write [1]], true) := by
  decide +kernel

/-- Every documented path is routed. -/
def DocsRouted (s : Server F) : Prop := ∀ p d, docOf s.docs p = some d → ∃ t, s.mux.get p = some t

/-- The documentation after a registration: new entries for its paths only, and only if these were free. -/
theorem register_docs (s : Server F) (c : Call F) (p : GoStr) :
    docOf (register s c).1.docs p = docOf s.docs p ∨ (Free s.mux c.paths ∧ p ∈ c.paths) := by
  have one : ∀ q r m', s.mux.add q r = .ok m' → Free s.mux [q] := fun q r m' he =>
    (free_one _ _).2 ⟨((add_spec s.mux q r).2 m' he).1, ((add_spec s.mux q r).2 m' he).2.1⟩
  have set : ∀ q d, docOf (setDoc s.docs q d) p = docOf s.docs p ∨ p ∈ [q] := by
    intro q d
    by_cases h : q = p
    · exact Or.inr (List.mem_singleton.2 h.symm)
    · exact Or.inl (by simp [setDoc, docOf, h])
  cases c with
  | handle q k =>
    rcases add_cases s.mux q ⟨k, true⟩ with he | ⟨m', he⟩
    · left; simp only [register, he]
    · simp only [register, he]
      exact (set q ⟨false⟩).imp id fun h => ⟨one _ _ _ he, h⟩
  | request q k =>
    rcases add_cases s.mux q ⟨k, false⟩ with he | ⟨m', he⟩
    · left; simp only [register, he]
    · simp only [register, he]
      exact (set q ⟨true⟩).imp id fun h => ⟨one _ _ _ he, h⟩
  | call q k =>
    left
    rcases add_cases s.mux q ⟨k, false⟩ with he | ⟨m', he⟩ <;> simp only [register, he]
  | prometheus q k =>
    left
    rcases add_cases s.mux (if q = [] then gs (lit "/metrics") else q) ⟨k, false⟩ with he | ⟨m', he⟩ <;> simp only [register, he]
  | monitoring pfx k => exact Or.inl rfl
  | api urls k d =>
    obtain ⟨⟨m', o⟩, hm⟩ : ∃ o, addAll ⟨k, false⟩ urls s.mux = o := ⟨_, rfl⟩
    simp only [register]
    split
    · exact Or.inl rfl
    · rw [hm]
      cases o with
      | err => exact Or.inl rfl
      | panic => exact Or.inl rfl
      | ok =>
        simp only
        split
        · simp only [docOf_fold]
          by_cases hp : p ∈ urls
          · refine Or.inr ⟨?_, hp⟩
            refine Classical.byContradiction fun hf => ?_
            have := (addAll_spec ⟨k, false⟩ urls s.mux).2.1 hf
            rw [hm] at this; cases this
          · left; rw [if_neg hp]
        · exact Or.inl rfl

theorem docs_routed (s : Server F) (c : Call F) (h : DocsRouted s) : DocsRouted (register s c).1 := by
  intro p d hd
  rcases register_docs s c p with he | ⟨hf, hp⟩
  · rw [he] at hd
    obtain ⟨t, ht⟩ := h p d hd
    exact ⟨t, register_kept s c p t ht⟩
  · obtain ⟨t, ht, _⟩ := (C118_registers s c).1 hf p hp
    exact ⟨t, ht⟩

/-- C118: on every server, after any registrations, including failed ones, every path in the openapi document is routed, and its entry is never replaced. -/
theorem C118_documented (ready : Req F → Int) (openapi : Handler F) (before after : List (Call F)) (p : GoStr) (d : Doc)
    (hd : docOf (registerAll before (newServer ready openapi)).docs p = some d) :
    (∃ t, (registerAll before (newServer ready openapi)).mux.get p = some t) ∧
    docOf (registerAll after (registerAll before (newServer ready openapi))).docs p = some d := by
  have inv : ∀ (l : List (Call F)) (s : Server F), DocsRouted s → DocsRouted (registerAll l s) := by
    intro l
    induction l with
    | nil => intro s h; exact h
    | cons c l ih => intro s h; exact ih _ (docs_routed s c h)
  have hnew : DocsRouted (newServer ready openapi) := fun p d h => by cases h
  have h0 := inv before _ hnew
  refine ⟨h0 p d hd, ?_⟩
  generalize registerAll before (newServer ready openapi) = s at h0 hd
  induction after generalizing s with
  | nil => exact hd
  | cons c l ih =>
    refine ih _ (docs_routed s c h0) ?_
    rcases register_docs s c p with he | ⟨hf, hp⟩
    · rw [he]; exact hd
    · obtain ⟨t, ht⟩ := h0 p d hd
      have := (hf.2 p hp).2
      rw [ht] at this; cases this

example : docOf demo.docs (gs (lit "/h")) = some ⟨false⟩ ∧ docOf demo.docs (gs (lit "/h/")) = some ⟨true⟩ ∧ docOf demo.docs (gs (lit "/p")) = none := by decide +kernel

/-- C118: `/live`, `/ready` and `/openapi.json` are taken: registering one of them panics, whatever was registered before. -/
theorem C118_reserved (ready : Req F → Int) (openapi : Handler F) (calls : List (Call F)) (c : Call F) (p : GoStr)
    (hp : p ∈ [gs (lit "/live"), gs (lit "/ready"), gs (lit "/openapi.json")]) (hc : p ∈ c.paths) :
    (register (registerAll calls (newServer ready openapi)) c).2 = .panic := by
  refine (C118_registers _ c).2.2.1 fun hf => ?_
  have : ∃ t, (newServer ready openapi).mux.get p = some t := by
    simp only [List.mem_cons, List.not_mem_nil, or_false] at hp
    rcases hp with rfl | rfl | rfl
    · exact ⟨_, rfl⟩
    · exact ⟨_, rfl⟩
    · exact ⟨_, rfl⟩
  obtain ⟨t, ht⟩ := this
  have h1 := C118_kept p t calls _ ht
  rw [(hf.2 p hc).2] at h1; cases h1

example : ((register demo (.handle (gs (lit "/live")) (fun _ => none))).2 matches .panic) = true := by decide +kernel

/-- C118: a path that is a pattern is served by its handler, whatever other patterns it falls under; another by the longest subtree pattern it falls under. -/
theorem C118_routing (m : Mux F) (path : GoStr) :
    (∀ t, m.get path = some t → m.find path = some (path, t)) ∧
    (m.get path = none → ∀ q t, m.find path = some (q, t) →
      (q, t) ∈ m ∧ q.getLast? = some (.rune '/') ∧ q <+: path ∧ ∀ q' t', (q', t') ∈ m → q'.getLast? = some (.rune '/') → q' <+: path → q'.length ≤ q.length) := by
  refine ⟨fun t h => by simp only [Mux.find, h], fun h q t hf => ?_⟩
  simp only [Mux.find, h] at hf
  obtain ⟨h1, h2, h3, h4⟩ := tree_spec hf
  exact ⟨h1, by simpa [isTree] using h2, h3, fun q' t' a b c => h4 q' t' a (by simpa [isTree] using b) c⟩

example : (demo.mux.find (gs (lit "/h/x/y"))).map (·.1) = some (gs (lit "/h/")) ∧ (demo.mux.find (gs (lit "/h"))).map (·.1) = some (gs (lit "/h")) ∧ (demo.mux.find (gs (lit "/p/x"))).map (·.1) = none := by decide +kernel

/-- C118 (violated): `RegisterAPI`, which returns an error, panics when one of its urls is taken; those before it stay registered, and are not documented. -/
theorem C118_api_violated (s : Server F) (hd : DocsRouted s) (u v : GoStr) (h : Handler F) (d : Reg) (hu : u ≠ []) (hfree : s.mux.get u = none) (t : Route F) (hv : s.mux.get v = some t) :
    (register s (.api [u, v] h d)).2 = .panic ∧ (register s (.api [u, v] h d)).1.mux.get u = some ⟨h, false⟩ ∧ docOf (register s (.api [u, v] h d)).1.docs u = none := by
  have huv : v ≠ u := fun e => by subst e; rw [hfree] at hv; cases hv
  obtain ⟨a1, a2⟩ := add_spec s.mux u ⟨h, false⟩
  rcases add_cases s.mux u ⟨h, false⟩ with he | ⟨m', he⟩
  · rcases a1.1 he with e | ⟨t', e⟩
    · exact absurd e hu
    · rw [hfree] at e; cases e
  · obtain ⟨_, _, b3⟩ := a2 m' he
    have hv' : m'.add v ⟨h, false⟩ = .error .explicit := (add_spec m' v _).1.2 (Or.inr ⟨t, by rw [b3, if_neg huv, hv]⟩)
    have hall : addAll ⟨h, false⟩ [u, v] s.mux = (m', .panic) := by simp only [addAll, he, hv']
    have hdoc : docOf s.docs u = none := by
      cases hx : docOf s.docs u with
      | none => rfl
      | some d => obtain ⟨t, ht⟩ := hd u d hx; rw [hfree] at ht; cases ht
    simp only [register, List.cons_ne_nil, if_false, hall]
    exact ⟨trivial, by rw [b3, if_pos rfl], hdoc⟩

/-- As is the last registration of `demo`. -/
example : (demo.mux.get (gs (lit "/q"))).isSome = true ∧ docOf demo.docs (gs (lit "/q")) = none := by decide +kernel

/-- C118 (violated): an API that can not be described is refused with an error, and serves all the same, undocumented; handlers registered by `CallHandler` are never documented. -/
theorem C118_undocumented_violated (s : Server F) (hd : DocsRouted s) (u : GoStr) (h : Handler F) (hu : u ≠ []) (hfree : s.mux.get u = none) :
    ((register s (.api [u] h .err)).2 = .err ∧ (register s (.api [u] h .err)).1.mux.get u = some ⟨h, false⟩ ∧ docOf (register s (.api [u] h .err)).1.docs u = none) ∧
    ((register s (.call u h)).2 = .ok ∧ (register s (.call u h)).1.mux.get u = some ⟨h, false⟩ ∧ docOf (register s (.call u h)).1.docs u = none) := by
  obtain ⟨a1, a2⟩ := add_spec s.mux u ⟨h, false⟩
  have hdoc : docOf s.docs u = none := by
    cases hx : docOf s.docs u with
    | none => rfl
    | some d => obtain ⟨t, ht⟩ := hd u d hx; rw [hfree] at ht; cases ht
  rcases add_cases s.mux u ⟨h, false⟩ with he | ⟨m', he⟩
  · rcases a1.1 he with e | ⟨t', e⟩
    · exact absurd e hu
    · rw [hfree] at e; cases e
  · obtain ⟨_, _, b3⟩ := a2 m' he
    have hall : addAll ⟨h, false⟩ [u] s.mux = (m', .ok) := by simp only [addAll, he]
    simp only [register, List.cons_ne_nil, if_false, hall, he, reduceCtorEq]
    exact ⟨⟨trivial, by rw [b3, if_pos rfl], hdoc⟩, trivial, by rw [b3, if_pos rfl], hdoc⟩

example : (demo.mux.get (gs (lit "/p"))).isSome = true ∧ docOf demo.docs (gs (lit "/p")) = none := by decide +kernel

/-! ### concrete cases -/

/-- C118: `/q` is routed and not documented, `/h` is both. -/
example : (demo.mux.map (·.1)) = [gs (lit "/live"), gs (lit "/ready"), gs (lit "/openapi.json"), gs (lit "/h"), gs (lit "/h/"), gs (lit "/p"), gs (lit "/q")] ∧
    demo.docs = [(gs (lit "/h/"), ⟨true⟩), (gs (lit "/h"), ⟨false⟩)] := by decide +kernel

/-- C116, C117: what requests are observed as: twice, as another path, not at all, as not found. -/
example : observations noRedirect demo.mux [get "/h", get "/h/x", get "/p", get "/z"] =
    [(labelsOf (gs (lit "GET")) (gs (lit "/h")) 200, 1), (labelsOf (gs (lit "GET")) (gs (lit "/h")) 200, 2), (labelsOf (gs (lit "GET")) (gs (lit "/h/x")) 204, 2),
     (labelsOf (gs (lit "GET")) (gs (lit "/z")) 404, 2)] := by decide +kernel

/-- C116: its handlers send final codes first. -/
example : Proper demo.mux := by
  have hm : demo.mux = [(gs (lit "/live"), ⟨fun _ => some liveOps, false⟩), (gs (lit "/ready"), ⟨fun _ => some (readyOps 204), false⟩),
      (gs (lit "/openapi.json"), ⟨fun _ => some [.header 200], false⟩), (gs (lit "/h"), ⟨fun _ => some [.write [1]], true⟩), (gs (lit "/h/"), ⟨fun _ => some [.header 204], false⟩),
      (gs (lit "/p"), ⟨fun _ => none, false⟩), (gs (lit "/q"), ⟨fun _ => some [.header 200], false⟩)] := rfl
  rw [hm]
  intro p t hmem r ops ho
  simp only [List.mem_cons, List.not_mem_nil, or_false, Prod.mk.injEq] at hmem
  rcases hmem with ⟨_, rfl⟩ | ⟨_, rfl⟩ | ⟨_, rfl⟩ | ⟨_, rfl⟩ | ⟨_, rfl⟩ | ⟨_, rfl⟩ | ⟨_, rfl⟩ <;> cases ho <;> exact ⟨_, rfl, rfl⟩

/-- C117: a new server answers every request. -/
example (r : Req Nat) : (newServer (fun _ => 204) (fun _ => some [.header 200])).mux.serve noRedirect r ≠ none := by
  have hs : ∀ ops c, firstStatus ops = some c → 100 ≤ c → c ≤ 999 →
      ((Http.serve ops).map fun a => (a.1, [(labelsOf r.method r.path a.2, r.outer)])) ≠ none := by
    intro ops c hf h1 h2 h
    rw [Option.map_eq_none_iff, C58_panics] at h
    obtain ⟨c', h3, h4⟩ := h
    rw [hf] at h3; injection h3 with h3; omega
  unfold Mux.serve
  simp only [noRedirect]
  cases hf : Mux.find (newServer (F := Nat) (fun _ => 204) (fun _ => some [.header 200])).mux r.path with
  | none => exact hs _ 404 rfl (by omega) (by omega)
  | some pt =>
    obtain ⟨p, t⟩ := pt
    have hm := find_mem hf
    simp only [newServer, List.mem_cons, List.not_mem_nil, or_false, Prod.mk.injEq] at hm
    rcases hm with ⟨_, rfl⟩ | ⟨_, rfl⟩ | ⟨_, rfl⟩
    · exact hs liveOps 204 rfl (by omega) (by omega)
    · exact hs (readyOps 204) 204 rfl (by omega) (by omega)
    · exact hs [.header 200] 200 rfl (by omega) (by omega)

/-- C116: the series of `/h` counts two requests as four. -/
example : ((do
    let M ← metrics natOps asciiPrint [1, 5] noRedirect demo.mux [get "/h", get "/h"]
    match M (lit "method=\"GET\",path=\"/h\",code=\"200\"") with
    | some t => do let p ← t.print [1, 5]; .ok (some (p.buckets, p.count))
    | none => .ok none) : Go (Option (List (Nat × Nat) × Nat))) = .ok (some ([(1, 2), (5, 4)], 4)) := by decide +kernel

end Verif.Http

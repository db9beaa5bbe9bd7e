import Verif.Http.ServerProps
import Verif.Http.ClientProps
import Verif.Api.CallProps
/-!
# Which requests run an API (http/server.go L191-246, http/api.go L26-74, api/handler.go L121-182) (C174)

* A request is what `handleRequest` and the function of `RegisterAPI` may look at: the method, the headers, and the body as it is read.
* `exec` is `Do` with what it does to the state of the application, which is any type.
* To a request with the method HEAD `net/http` sends the status and the headers of the answer, not its body.
-/
set_option autoImplicit false
namespace Verif.Http.Methods
open Verif.Strconv Verif.Enc Verif.Api Verif.Http

variable {X : Ext} [DecidableEq X.F] [DecidableEq X.T]

/-- A request. `accept` is its header `Accept`, `headers` are the others; `body`: none, unreadable, or read. http/server.go L191-204. -/
structure HReq where
  method : Str
  accept : Str
  headers : List (Str × Str)
  body : Option (Option Bytes)

/-- An API: the handler made of the template, the content of the template, and `Do`. http/api.go L26-30. -/
structure API (X : Ext) (σ : Type) where
  fs : Fields
  handler : AHandler
  now : FVals X fs
  exec : σ → FVals X fs → σ × Done (FVals X fs)

/-- The objects `Do` is called on: none, if the body is not taken. http/api.go L31-50, http/server.go L194-204. -/
def taken {σ : Type} (N : NetExt) (O : Order) (A : API X σ) (q : HReq) : Option (FVals X A.fs) :=
  match q.body with
  | some none => none
  | b => match readFrom (N.text ((b.getD none).getD [])) with
    | none => none
    | some d => match recv O A.handler A.fs A.now { data := d } with
      | .ok obj => some obj
      | _ => none

/-- What is sent of an answer: of HEAD only the head. For http/server.go L191-246. -/
def shown (method : Str) (r : Resp) : Resp := if method = lit "HEAD" then { r with body := [] } else r

/-- A request to a registered API: the state afterwards, and the answer with the code measured; `none`: it panicked. http/server.go L191-246, http/api.go L31-63. -/
def request {σ : Type} (N : NetExt) (O : Order) (tid : Str) (A : API X σ) (s : σ) (q : HReq) : σ × Option (Resp × Int) :=
  let after := match taken N O A q with
    | none => s
    | some obj => (A.exec s obj).1
  (after, (handleRequest N tid q.accept (apiFunc N O A.handler A.fs A.now fun obj => (A.exec s obj).2) q.body).map fun r => (shown q.method r.1, r.2))

/-! ### the property -/

/-- The request is what the document describes: a POST of a JSON object. api/handler.go L156-177 documents `post` with a body of `application/json`. -/
def Documented (N : NetExt) (X : Ext) (q : HReq) : Prop :=
  q.method = lit "POST" ∧ (lit "Content-Type", lit "application/json") ∈ q.headers ∧
    ∃ b : Bytes, q.body = some (some b) ∧ ∃ m : List (Str × Node X), decode (N.text b) = some (some (.map m))

/-! ### lemmas -/

theorem apiFunc_taken {σ : Type} (N : NetExt) (O : Order) (A : API X σ) (s : σ) (b : Bytes) (acc : Str) (q : HReq) (hq : q.body = some (some b)) (ht : taken N O A q = none)
    (tid : Str) (r : Resp) (m : Int) (hr : handleRequest N tid acc (apiFunc N O A.handler A.fs A.now fun obj => (A.exec s obj).2) q.body = some (r, m)) :
    r.status = 400 ∨ r.status = 500 := by
  unfold taken at ht
  rw [hq] at ht hr
  simp only [Option.getD_some] at ht
  cases hd : readFrom (X := X) (N.text b) with
  | none =>
    rw [C81_violated N tid acc O A.handler A.fs A.now _ b hd] at hr
    injection hr with hr; injection hr with hr _
    rw [← hr]; exact Or.inr rfl
  | some d =>
    rw [hd] at ht
    cases hv : recv O A.handler A.fs A.now { data := d } with
    | ok obj => simp only [hv] at ht; cases ht
    | err =>
      obtain ⟨msg, he⟩ := C81_partial N tid acc O A.handler A.fs A.now (fun obj => (A.exec s obj).2) b d hd hv
      rw [he] at hr
      injection hr with hr; injection hr with hr _
      rw [← hr]; exact Or.inl rfl
    | panic =>
      simp only [handleRequest, readBody, apiFunc, hd, hv, requestOps] at hr
      cases hr

/-- An unreadable body is answered 400. -/
theorem unreadable (N : NetExt) (tid acc : Str) (f : Bytes → Done Bytes) : ∃ r, handleRequest N tid acc f (some none) = some (r, 400) ∧ r.status = 400 := by
  have hc : Errors.errorCode (some (Errors.httpNewErrorf () () 400 1 (N.readMsg []) [] : Error)) 500 = 400 := rfl
  refine ⟨_, error_answer N tid acc _ 400 hc ⟨by decide, by decide⟩, rfl⟩

theorem shown_status (m : Str) (r : Resp) : (shown m r).status = r.status ∧ (shown m r).headers = r.headers := by
  unfold shown; split <;> exact ⟨rfl, rfl⟩

/-- What `Recv` makes of no data at all. -/
theorem recv_nothing (U : Str → Option Str) (O : Order) (fs : Fields) (tmpl : Option (Val X (.struct fs))) (h : AHandler)
    (hh : newHandler U (.ptr (.struct fs) tmpl) = some h) (hex : ∀ f ∈ fs.infos, f.exported = true) (hreq : ∀ f ∈ fs.infos, ¬ IsRequired f) (now : FVals X fs) :
    ∃ obj, recv O h fs now { data := [] } = .ok obj := by
  obtain ⟨hok, hin, _, hinit, hauth⟩ := newHandler_lists U fs tmpl h hh
  have hnr : ∀ (sel : ATag → Bool → Bool) (a : HField) (w : FVals X fs), a ∈ collect U sel fs (content fs tmpl) 0 → ∃ f t x, At w a.i f t x ∧ a.tag.required = false := by
    intro sel a w ha
    obtain ⟨f, t, x, g1, g2⟩ := listed_at U sel fs _ w a ha
    refine ⟨f, t, x, g1, ?_⟩
    cases hr : a.tag.required with
    | false => rfl
    | true => exact absurd (((C53_words U f).2 a.tag g2).2.2.2.2.1.1 hr) (hreq f (at_info g1))
  obtain ⟨v1, h1⟩ := recvInit_succeeds fs now h.init (zeroFields X fs) fun j hj => by
    rw [hinit, List.mem_map] at hj
    obtain ⟨a, ha, rfl⟩ := hj
    obtain ⟨f, t, x, g1, _⟩ := listed_at U _ fs _ now a ha
    exact ⟨f, t, x, g1, hex f (at_info g1)⟩
  obtain ⟨v2, h2⟩ := recvIns_succeeds O fs [] h.ins v1 (by rw [hin]; exact collect_pairwise U _ fs _ 0) fun a ha => by
    rw [hin] at ha
    obtain ⟨f, t, x, g1, g2⟩ := hnr _ a v1 ha
    exact ⟨f, t, x, x, g1, rfl, fun hr => by rw [g2] at hr; cases hr⟩
  unfold recv
  rw [h1]
  show ∃ obj, (recvIns O fs [] h.ins v1).bind _ = _
  rw [h2]
  show ∃ obj, (match h.auth with | none => Res.ok v2 | some a => modField (authField O none a.tag.required) fs a.i v2) = Res.ok obj
  rcases Option.eq_none_or_eq_some h.auth with ha | ⟨a, ha⟩
  · rw [ha]; exact ⟨v2, rfl⟩
  · rw [ha]
    have hm : a ∈ collect U (fun t _ => t.auth) fs (content fs tmpl) 0 := by rw [← hauth, ha]; simp
    obtain ⟨f, t, x, g1, g2⟩ := hnr _ a v2 hm
    exact modField_succeeds _ fs a.i v2 f t x x g1 (by unfold authField; rw [g2]; rfl)

/-! ### C174 -/

/-- C174: a request whose body is not taken changes nothing and is refused, whatever its method. -/
theorem C174_refused {σ : Type} (N : NetExt) (O : Order) (tid : Str) (A : API X σ) (s : σ) (q : HReq) (hb : q.body ≠ none) (ht : taken N O A q = none) :
    (request N O tid A s q).1 = s ∧ ∀ r m, (request N O tid A s q).2 = some (r, m) → r.status = 400 ∨ r.status = 500 := by
  refine ⟨by unfold request; simp only [ht], ?_⟩
  intro r m hr
  unfold request at hr
  simp only [Option.map_eq_some_iff] at hr
  obtain ⟨⟨r', m'⟩, h1, h2⟩ := hr
  injection h2 with h2 _
  rw [← h2, (shown_status _ _).1]
  cases hq : q.body with
  | none => exact absurd hq hb
  | some b =>
    cases b with
    | none =>
      rw [hq] at h1
      obtain ⟨r0, h3, h4⟩ := unreadable N tid q.accept (apiFunc N O A.handler A.fs A.now fun obj => (A.exec s obj).2)
      rw [h3] at h1
      injection h1 with h1; injection h1 with h1 _
      rw [← h1]; exact .inl h4
    | some b => exact apiFunc_taken N O A s b q.accept q hq ht tid r' m' h1

/-- C174: an API is run only if the body could be read, is an object or empty, and has what is required; and it is run on what `Recv` makes of it. -/
theorem C174_only {σ : Type} (N : NetExt) (O : Order) (tid : Str) (A : API X σ) (s : σ) (q : HReq) :
    (request N O tid A s q).1 = s ∨ q.body ≠ some none ∧ ∃ d obj, readFrom (N.text ((q.body.getD none).getD [])) = some d ∧
      recv O A.handler A.fs A.now { data := d } = .ok obj ∧ (request N O tid A s q).1 = (A.exec s obj).1 := by
  have hq : taken N O A q = none → (request N O tid A s q).1 = s := fun h => by unfold request; simp only [h]
  by_cases hb : q.body = some none
  · exact .inl (hq (by unfold taken; rw [hb]))
  · have ht : taken N O A q = match readFrom (N.text ((q.body.getD none).getD [])) with
        | none => none
        | some d => match recv O A.handler A.fs A.now { data := d } with
          | .ok obj => some obj
          | _ => none := by
      unfold taken
      split
      · rename_i h; exact absurd h hb
      · rfl
    cases hr : readFrom (X := X) (N.text ((q.body.getD none).getD [])) with
    | none => simp only [hr] at ht; exact .inl (hq ht)
    | some d =>
      cases hv : recv O A.handler A.fs A.now { data := d } with
      | err => simp only [hr, hv] at ht; exact .inl (hq ht)
      | panic => simp only [hr, hv] at ht; exact .inl (hq ht)
      | ok obj =>
        simp only [hr, hv] at ht
        exact .inr ⟨hb, d, obj, rfl, hv, by unfold request; simp only [ht]⟩

/-- C174 is violated: the method and the headers other than `Accept` make no difference to what is done, nor to the status, the headers and the code that is
measured; nor to the body of the answer, except that HEAD is not sent it. -/
theorem C174_ignored_violated {σ : Type} (N : NetExt) (O : Order) (tid : Str) (A : API X σ) (s : σ) (q : HReq) (method : Str) (headers : List (Str × Str)) :
    let q' := { q with method := method, headers := headers }
    (request N O tid A s q').1 = (request N O tid A s q).1 ∧
    ((request N O tid A s q').2.map fun r => (r.1.status, r.1.headers, r.2)) = ((request N O tid A s q).2.map fun r => (r.1.status, r.1.headers, r.2)) ∧
    (method ≠ lit "HEAD" → q.method ≠ lit "HEAD" → request N O tid A s q' = request N O tid A s q) := by
  refine ⟨rfl, ?_, ?_⟩
  · unfold request
    simp only [Option.map_map]
    congr 1
    funext r
    simp only [Function.comp, (shown_status _ _).1, (shown_status _ _).2]
  · intro h1 h2
    unfold request
    simp only [shown, if_neg h1, if_neg h2]
    rfl

/-- C174 is violated: whatever a request makes an API do, a GET with the same body, of any content type or none, makes it do as well, with the same answer. -/
theorem C174_method_violated {σ : Type} (N : NetExt) (O : Order) (tid : Str) (A : API X σ) (s : σ) (q : HReq) (hq : Documented N X q) (headers : List (Str × Str)) :
    let q' := { q with method := lit "GET", headers := headers }
    ¬ Documented N X q' ∧ request N O tid A s q' = request N O tid A s q := by
  refine ⟨fun h => absurd (show lit "GET" = lit "POST" from h.1) (by decide), ?_⟩
  exact (C174_ignored_violated N O tid A s q (lit "GET") headers).2.2 (by decide) (by rw [hq.1]; decide)

/-- C174 is violated: so does a POST of a form, which a browser sends for any page without asking. -/
theorem C174_type_violated {σ : Type} (N : NetExt) (O : Order) (tid : Str) (A : API X σ) (s : σ) (q : HReq) (hq : Documented N X q) :
    let q' := { q with headers := [(lit "Content-Type", lit "text/plain")] }
    ¬ Documented N X q' ∧ request N O tid A s q' = request N O tid A s q := by
  refine ⟨fun h => absurd (show (lit "Content-Type", lit "application/json") ∈ [(lit "Content-Type", lit "text/plain")] from h.2.1) (by decide), ?_⟩
  exact (C174_ignored_violated N O tid A s q q.method [(lit "Content-Type", lit "text/plain")]).2.2 (by rw [hq.1]; decide) (by rw [hq.1]; decide)

/-- C174 is violated: HEAD, which is meant to do nothing, does all that POST does; only the answer is not sent. -/
theorem C174_head_violated {σ : Type} (N : NetExt) (O : Order) (tid : Str) (A : API X σ) (s : σ) (q : HReq) (r : Resp) (m : Int) (hm : q.method ≠ lit "HEAD")
    (hr : (request N O tid A s q).2 = some (r, m)) :
    request N O tid A s { q with method := lit "HEAD" } = ((request N O tid A s q).1, some ({ r with body := [] }, m)) := by
  unfold request at hr ⊢
  simp only [Option.map_eq_some_iff] at hr
  obtain ⟨⟨r', m'⟩, h1, h2⟩ := hr
  injection h2 with h2 h3
  simp only [shown, if_neg hm] at h2
  refine Prod.ext rfl ?_
  show Option.map _ _ = _
  rw [h1, ← h2, ← h3]
  simp [shown]

/-- C174 is violated: if nothing is required, a request without a body, such as that for a link, runs `Do`, whatever its method. -/
theorem C174_bare_violated {σ : Type} (U : Str → Option Str) (N : NetExt) (hN : N.text [] = []) (O : Order) (tid : Str) (A : API X σ) (tmpl : Option (Val X (.struct A.fs)))
    (hh : newHandler U (.ptr (.struct A.fs) tmpl) = some A.handler) (hnow : A.now = content A.fs tmpl) (hex : ∀ f ∈ A.fs.infos, f.exported = true)
    (hreq : ∀ f ∈ A.fs.infos, ¬ IsRequired f) (s : σ) (q : HReq) (hq : q.body = some (some [])) :
    ¬ Documented N X q ∧ ∃ obj, (request N O tid A s q).1 = (A.exec s obj).1 ∧ ∀ j f t x, At obj j f t x → IsIn f → ¬ IsAuth f → x = zero X t := by
  refine ⟨?_, ?_⟩
  · rintro ⟨_, _, b, hb, m, hm⟩
    rw [hq] at hb
    injection hb with hb; injection hb with hb
    rw [← hb, hN] at hm
    have hd : decode (X := X) [] = some none := rfl
    rw [hd] at hm
    cases hm
  · obtain ⟨obj, ho⟩ := recv_nothing U O A.fs tmpl A.handler hh hex hreq A.now
    refine ⟨obj, ?_, ?_⟩
    · unfold request taken
      simp only [hq, Option.getD_some, hN, readFrom, if_true, ho]
    · intro j f t x hx hi hna
      obtain ⟨y, hy⟩ := at_any (content A.fs tmpl) hx
      rw [hnow] at ho
      have := (C49_inputs U O A.fs tmpl A.handler hh _ obj ho j f t x y hx hy hna).1 hi
      unfold Api.Decoded at this
      exact this

/-! ### C117: methods as labels -/

/-- The methods `M`, `MX`, `MXX`, … , which are tokens, so that `net/http` takes them. -/
def longMethod (i : Nat) : Prom.GoStr := gs ('M' :: List.replicate i 'X')

theorem longMethod_inj {i j : Nat} (h : longMethod i = longMethod j) : i = j := by
  have := congrArg List.length (gs_inj h)
  simpa using this

/-- C117 is violated even if clients ask for one path only, be it registered or not: `n` requests with different methods make `n` series, which are kept for ever. -/
theorem C117_methods_violated {F : Type} (fo : Prom.FloatOps F) (isPrint : Char → Bool) (les : List F) (E : MuxExt) (m : Mux F) (d : F) (path : Prom.GoStr)
    (ha : ∀ r : Http.Req F, r.path = path → m.serve E r ≠ none) (n : Nat) :
    ∃ (reqs : List (Http.Req F)) (M : Prom.LMap (Prom.TS F)) (ks : List Str), reqs.length = n ∧ (∀ r ∈ reqs, r.path = path) ∧ metrics fo isPrint les E m reqs = .ok M ∧
      ks.length = n ∧ ks.Nodup ∧ ∀ k ∈ ks, ∃ t, M k = some t := by
  let req : Nat → Http.Req F := fun i => { method := longMethod i, path := path, inner := d, outer := d }
  let reqs := (List.range n).map req
  obtain ⟨M, hM, hk⟩ := Prom.C27_histogram fo isPrint labelNames les (observations E m reqs) (obs_arity E m reqs)
  have h : ∀ i, ∃ c k, Prom.stringify isPrint labelNames (labelsOf (longMethod i) path c) = .ok k ∧ (i < n → ∃ t, M k = some t) := by
    intro i
    by_cases hi : i < n
    · obtain ⟨c, hc⟩ := under_asked E m reqs (req i) (List.mem_map.2 ⟨i, List.mem_range.2 hi, rfl⟩) (ha _ rfl)
      obtain ⟨k, hs⟩ := (Prom.C26_arity isPrint labelNames (labelsOf (longMethod i) path c)).2.2 rfl
      exact ⟨c, k, hs, fun _ => by obtain ⟨t, h1, _⟩ := (hk _ k hs).2 hc; exact ⟨t, h1⟩⟩
    · obtain ⟨k, hs⟩ := (Prom.C26_arity isPrint labelNames (labelsOf (longMethod i) path 0)).2.2 rfl
      exact ⟨0, k, hs, fun h => absurd h hi⟩
  let key := fun i => (h i).choose_spec.choose
  have hspec := fun i => (h i).choose_spec.choose_spec
  refine ⟨reqs, M, (List.range n).map key, by simp [reqs], ?_, hM, by simp, ?_, ?_⟩
  · intro r hr
    obtain ⟨i, _, rfl⟩ := List.mem_map.1 hr
    rfl
  · rw [List.nodup_iff_pairwise_ne, List.pairwise_map]
    refine List.nodup_range.imp ?_
    intro i j hne he
    have h1 := (hspec i).1; have h2 := (hspec j).1
    have he : (h i).choose_spec.choose = (h j).choose_spec.choose := he
    rw [he] at h1
    have := (Prom.C26_injective isPrint labelNames _ _ rfl rfl).1 (h1.trans h2.symm)
    exact hne (longMethod_inj (labelsOf_inj.1 this).1)
  · intro k hk'
    obtain ⟨i, hi, rfl⟩ := List.mem_map.1 hk'
    exact (hspec i).2 (List.mem_range.1 hi)

/-- Two requests for `/live` with methods nobody has heard of. -/
example : (observations noRedirect demo.mux [⟨longMethod 0, gs (lit "/live"), [], 0, 1, 1⟩, ⟨longMethod 2, gs (lit "/live"), [], 0, 1, 1⟩]).map (·.1) =
    [[gs (lit "M"), gs (lit "/live"), gs (lit "204")], [gs (lit "MXX"), gs (lit "/live"), gs (lit "204")]] := by decide +kernel

/-! ### concrete cases -/

/-- `struct { R any "/reset"; To int "in"; Was int "out" }` -/
def resetTy : Fields :=
  .cons { name := lit "R", url := lit "/reset" } .any <|
  .cons { name := lit "To", tag := lit "to", api := lit "in" } (.int .w64) <|
  .cons { name := lit "Was", tag := lit "was", api := lit "out" } (.int .w64) .nil

/-- Its handler. -/
def resetH : AHandler := (newHandler (X := XT) anyUrl (.ptr (.struct resetTy) none)).getD {}

/-- An API that sets a number, and answers what it was. -/
def reset : API XT Int where
  fs := resetTy
  handler := resetH
  now := zeroFields XT resetTy
  exec := fun (s : Int) (v : FVals XT resetTy) => (BitVec.toInt (n := 64) v.2.1, .ok (v.1, v.2.1, BitVec.ofInt 64 s, v.2.2.2))

/-- A link to it resets the number to zero, and so does asking for the head only. -/
example : request NT sortedOrder [] reset 7 ⟨lit "GET", [], [], some (some [])⟩ = (0, some (⟨200, [(lit "Content-Type", lit "application/json")], utf8 (lit "{\"was\":7}")⟩, 200)) ∧
    request NT sortedOrder [] reset 7 ⟨lit "HEAD", [], [], some (some [])⟩ = (0, some (⟨200, [(lit "Content-Type", lit "application/json")], []⟩, 200)) := by
  decide +kernel

/-- What is not an object sets nothing. -/
example : request NT sortedOrder [] reset 7 ⟨lit "POST", [], [(lit "Content-Type", lit "application/json")], some (some (utf8 (lit "[3]")))⟩ =
    (7, some (⟨500, [], utf8 (internalError [])⟩, 500)) := by decide +kernel

/-- The hypotheses of `C174_bare_violated` hold of it. -/
example : newHandler (X := XT) anyUrl (.ptr (.struct reset.fs) none) = some reset.handler ∧ reset.now = content reset.fs none ∧
    (∀ f ∈ reset.fs.infos, f.exported = true) ∧ ∀ f ∈ reset.fs.infos, ¬ IsRequired f := by
  refine ⟨by decide +kernel, rfl, by decide +kernel, ?_⟩
  unfold IsRequired
  decide +kernel

end Verif.Http.Methods

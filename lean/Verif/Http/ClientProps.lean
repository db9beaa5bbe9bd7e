import Verif.Http.ClientLemmas
/-!
# Properties of http calls (C59, C79-C84)
-/
set_option autoImplicit false
namespace Verif.Http
open Verif.Strconv Verif.Enc Verif.Api

variable {X : Ext} [DecidableEq X.F] [DecidableEq X.T]

/-- The code a failed call reports. -/
def Done.code {α : Type} : Done α → Option Int
  | .err e => e.asHttp.map (·.1)
  | _ => none

/-- A failed call. -/
def Done.failed {α : Type} : Done α → Bool
  | .err _ => true
  | _ => false

/-- Not all calls are. -/
example : Done.failed (.ok 3) = false := rfl

/-- An error made by `NewErrorf` with one `%w` has the code of what it wraps. -/
theorem asHttp_newErrorf (id : Nat) (msg : String) (e : Error) : (Errors.newErrorf () () id msg [e]).asHttp = e.asHttp := by
  simp only [Errors.newErrorf, Errors.errorf, Errors.maybeWrap]
  by_cases h : Errors.Err.is Errors.Target.ctxError (Errors.Err.wrap id msg e) = true
  · simp only [h, if_true, Errors.Err.asHttp]
  · simp only [h]; simp only [Bool.false_eq_true, if_false, Errors.Err.asHttp]

/-! ### C59: the client -/

/-- A world without zipping, where bytes are characters. -/
def NT : NetExt := ⟨fun b => b.map fun u => Char.ofNat u.toNat, fun b => [b], fun _ => "", fun _ _ => "", fun _ => "", fun _ => "", fun _ => ""⟩

/-- `Client.Do` succeeds exactly for 200 and 204, and fails with the status as code for any other. -/
theorem C59_do (N : NetExt) (r : Resp) : (r.status = 200 ∨ r.status = 204 → clientDo N (some r) = .ok r) ∧
    (r.status ≠ 200 → r.status ≠ 204 → (clientDo N (some r)).code = some r.status) := by
  refine ⟨fun h => by simp [clientDo, h], fun h1 h2 => ?_⟩
  simp [clientDo, h1, h2, Done.code, Errors.Err.asHttp]

example : (clientDo NT (some ⟨404, [], []⟩)).code = some 404 ∧ (clientDo NT (some ⟨201, [], utf8 (lit "{}")⟩)).code = some 201 ∧ (clientDo NT (some ⟨204, [], []⟩)).failed = false := by decide +kernel

/-- `struct { R any "/x"; A string "out"; B string "out" }` -/
def twoTy : Fields :=
  .cons { name := lit "R", url := lit "/x" } .any <| .cons { name := lit "A", api := lit "out" } .string <| .cons { name := lit "B", api := lit "out" } .string .nil

/-- The two texts. -/
def twoTexts : FVals XT twoTy → Str × Str
  | (_, a, b, _) => (a, b)

/-- `Client.API` changes the object only if a response of status 200 came, that holds an object. -/
theorem C59_unchanged (N : NetExt) (U : Str → Option Str) (O : Order) (fs : Fields) (net : Str → Bytes → Option Resp) (obj : FVals X fs)
    (hn : ∀ u b r, net u b = some r → r.status = 200 → readFrom (X := X) (N.text r.body) = none) : (clientAPI N U O fs net obj).1 = obj := by
  unfold clientAPI
  split
  · rfl
  · split
    · rfl
    · rfl
    · split
      · rfl
      · split
        · rfl
        · rename_i u _ _
          split
          · rfl
          · rfl
          · rename_i s _ _ _ _ _ r hr
            split
            · rfl
            · rename_i h204
              cases hb : net u (utf8 s) with
              | none => rw [hb] at hr; cases hr
              | some r' =>
                rw [hb] at hr
                simp only [clientDo] at hr
                split at hr
                · rename_i hc
                  injection hr with hr; subst hr
                  have h200 := hn u _ _ hb (hc.resolve_right h204)
                  simp only [h200]
                · cases hr

/-- A page of html as an answer. -/
example : twoTexts (clientAPI (X := XT) NT anyUrl sortedOrder twoTy (fun _ _ => some ⟨200, [], utf8 (lit "<html>")⟩) (Any.nil, lit "a", lit "b", ())).1 = (lit "a", lit "b") ∧
    (clientAPI (X := XT) NT anyUrl sortedOrder twoTy (fun _ _ => some ⟨200, [], utf8 (lit "<html>")⟩) (Any.nil, lit "a", lit "b", ())).2.failed = true := by decide +kernel

/-- If the request can be sent, and is answered by a status other than 200 and 204, then the call fails with this code. -/
theorem C59_code (N : NetExt) (U : Str → Option Str) (O : Order) (fs : Fields) (net : Str → Bytes → Option Resp) (obj : FVals X fs)
    (h : AHandler) (d : List (Str × Node X)) (s u : Str) (us : List Str) (r : Resp) (hh : newHandler (X := X) U (.ptr (.struct fs) (some obj)) = some h)
    (hd : send O fs obj h.ins [] = .ok d) (he : encode (.map d) = .ok s) (hu : h.urls = u :: us) (hr : net u (utf8 s) = some r) :
    (r.status = 204 → clientAPI N U O fs net obj = (obj, .ok ())) ∧
    (r.status ≠ 200 → r.status ≠ 204 → (clientAPI N U O fs net obj).1 = obj ∧ (clientAPI N U O fs net obj).2.code = some r.status) := by
  unfold clientAPI
  simp only [hh, hd, he, hu, hr]
  refine ⟨fun h1 => ?_, fun h1 h2 => ?_⟩
  · simp [clientDo, h1]
  · simp [clientDo, h1, h2, Done.code, asHttp_newErrorf, Errors.Err.asHttp]

example : (clientAPI (X := XT) NT anyUrl sortedOrder twoTy (fun _ _ => some ⟨418, [], utf8 (lit "{\"A\":\"new\"}")⟩) (Any.nil, lit "a", lit "b", ())).2.code = some 418 ∧
    twoTexts (clientAPI (X := XT) NT anyUrl sortedOrder twoTy (fun _ _ => some ⟨204, [], utf8 (lit "{\"A\":\"new\"}")⟩) (Any.nil, lit "a", lit "b", ())).1 = (lit "a", lit "b") := by decide +kernel

/-- C59 is violated: if a later output can not be read then the call fails, but the earlier ones are changed. -/
theorem C59_violated : ∃ net, twoTexts (clientAPI (X := XT) NT anyUrl sortedOrder twoTy net (Any.nil, lit "a", lit "b", ())).1 = (lit "new", lit "b") ∧
    (clientAPI (X := XT) NT anyUrl sortedOrder twoTy net (Any.nil, lit "a", lit "b", ())).2.failed = true := by
  refine ⟨fun _ _ => some ⟨200, [], utf8 (lit "{\"A\":\"new\",\"B\":[]}")⟩, ?_⟩
  decide +kernel

/-! ### C79: errors over the network -/

/-- An error of a handler reaches the client as an error of the same code. -/
theorem C79_error_partial (N : NetExt) (tid accept : Str) (f : Bytes → Done Bytes) (body : Option (Option Bytes)) (e : Error)
    (hf : readBody N f body = .err e) (hs : ErrorStatus (Errors.errorCode (some e) 500)) (h1 : Errors.errorCode (some e) 500 ≠ 200)
    (h2 : Errors.errorCode (some e) 500 ≠ 204) :
    (clientDo N ((handleRequest N tid accept f body).map Prod.fst)).code = some (Errors.errorCode (some e) 500) := by
  obtain ⟨r, k1, k2, _⟩ := C56_answer_partial N tid accept f body e hf hs
  rw [k1, ← k2]
  exact (C59_do N r).2 (by omega) (by omega)

example : (clientDo NT ((handleRequest NT (lit "t1") [] (fun _ => .err (.httpErr 409 none)) (some (some []))).map Prod.fst)).code = some 409 := by decide +kernel

/-- C79 is violated: an error with an informational code, or one of 200 or 204, is a success for the client. -/
theorem C79_violated (N : NetExt) (tid accept : Str) (f : Bytes → Done Bytes) (body : Option (Option Bytes)) (e : Error) (hf : readBody N f body = .err e)
    (hc : informational (Errors.errorCode (some e) 500) = true ∨ Errors.errorCode (some e) 500 = 200 ∨ Errors.errorCode (some e) 500 = 204) :
    ∃ r, clientDo N ((handleRequest N tid accept f body).map Prod.fst) = .ok r := by
  rcases hc with hc | hc
  · obtain ⟨r, m, k1, k2, _⟩ := (C56_violated N tid accept f body e hf).1 hc
    rw [k1]
    exact ⟨r, (C59_do N r).1 (Or.inl k2)⟩
  · obtain ⟨r, k1, k2, _⟩ := C56_answer_partial N tid accept f body e hf (by unfold ErrorStatus; omega)
    rw [k1]
    exact ⟨r, (C59_do N r).1 (by rw [k2]; exact hc)⟩

/-- C79: an error that went through another client keeps its code. -/
example : (clientDo NT ((handleRequest NT (lit "t1") [] (fun _ => match clientDo NT (some ⟨404, [], []⟩) with | .ok r => .ok r.body | .err e => .err (Errors.newErrorf () () 99 "upstream" [e]) | .panic => .panic)
    (some (some []))).map Prod.fst)).code = some 404 := by decide +kernel

/-! ### C80: call handlers -/

/-- A `CallHandler` answers an error by its code, without body, nothing by 204 and anything else by 200 with exactly these bytes. -/
theorem C80_call (r : Done Bytes) (ops : List Op) (h : callOps r = some ops) :
    (∀ e, r = .err e → ErrorStatus (Errors.errorCode (some e) 500) → serve ops = some (⟨Errors.errorCode (some e) 500, [], []⟩, Errors.errorCode (some e) 500)) ∧
    (r = .ok [] → serve ops = some (⟨204, [], []⟩, 204)) ∧ (∀ out, r = .ok out → out ≠ [] → serve ops = some (⟨200, [], out⟩, 200)) := by
  refine ⟨fun e he hs => ?_, fun he => ?_, fun out he ho => ?_⟩
  · subst he
    injection h with h; subst h
    generalize Errors.errorCode (some e) 500 = c at *
    obtain ⟨h1, h2⟩ := hs
    have k1 : ¬(c < 100 ∨ 999 < c) := by omega
    have k2 : informational c = false := by simp [informational]; omega
    simp [serve, run, step, wrap, netW, NetW.header, k1, k2, NetW.finish]
  · subst he
    injection h with h; subst h
    decide +kernel
  · subst he
    have : ¬ out.length = 0 := by simpa using ho
    simp only [callOps, this, if_false] at h
    injection h with h; subst h
    rfl

example : (callOps (.ok [])).bind serve = some (⟨204, [], []⟩, 204) ∧ (callOps (.ok [7])).bind serve = some (⟨200, [], [7]⟩, 200) ∧
    (callOps (.err (.httpErr 403 none))).bind serve = some (⟨403, [], []⟩, 403) := by decide +kernel

/-- `/live` is always 204, `/ready` what was set, if it is a code that ends a response. -/
theorem C80_ready (ready : Int) (hs : ErrorStatus ready) : serve liveOps = some (⟨204, [], []⟩, 204) ∧ serve (readyOps ready) = some (⟨ready, [], []⟩, ready) := by
  refine ⟨by decide +kernel, ?_⟩
  obtain ⟨h1, h2⟩ := hs
  have k1 : ¬(ready < 100 ∨ 999 < ready) := by omega
  have k2 : informational ready = false := by simp [informational]; omega
  simp [serve, readyOps, run, step, wrap, netW, NetW.header, k1, k2, NetW.finish]

example : serve (readyOps 503) = some (⟨503, [], []⟩, 503) ∧ serve (readyOps 42) = none := by decide +kernel

/-! ### C81: bodies that are not JSON objects -/

/-- `struct { R any "/hi"; Name string "in"; Text string "out" }` -/
def hiTy : Fields :=
  .cons { name := lit "R", url := lit "/hi" } .any <| .cons { name := lit "Name", api := lit "in" } .string <| .cons { name := lit "Text", api := lit "out" } .string .nil

/-- Its handler. -/
def hi : AHandler := (newHandler (X := XT) anyUrl (.ptr (.struct hiTy) none)).getD {}

/-- Its two texts. -/
def hiTexts : FVals XT hiTy → Str × Str
  | (_, a, b, _) => (a, b)

/-- C81 is violated: a body that is not a JSON object is answered 500, as if the server had failed. -/
theorem C81_violated (N : NetExt) (tid accept : Str) (O : Order) (h : AHandler) (fs : Fields) (now : FVals X fs) (exec : FVals X fs → Done (FVals X fs)) (body : Bytes)
    (hb : readFrom (X := X) (N.text body) = none) :
    handleRequest N tid accept (apiFunc N O h fs now exec) (some (some body)) = some (⟨500, [], utf8 (internalError tid)⟩, 500) := by
  have hf : readBody N (apiFunc N O h fs now exec) (some (some body)) = .err (Errors.newErrorf () () 2 (N.readMsg body) []) := by simp only [readBody, apiFunc, hb]
  have hc : Errors.errorCode (some (Errors.newErrorf () () 2 (N.readMsg body) [])) 500 = 500 := rfl
  simp only [handleRequest, hf]
  exact error_answer N tid accept _ 500 hc ⟨by decide, by decide⟩

example : handleRequest NT (lit "t1") [] (apiFunc (X := XT) NT sortedOrder hi hiTy (zeroFields XT hiTy) .ok) (some (some (utf8 (lit "{\"Name\":"))))
    = some (⟨500, [], utf8 (internalError (lit "t1"))⟩, 500) := C81_violated NT _ _ _ _ _ _ _ _ (by decide +kernel)

/-- Whereas an object that does not fit, or lacks a required input, is answered 400 with the reason. -/
theorem C81_partial (N : NetExt) (tid accept : Str) (O : Order) (h : AHandler) (fs : Fields) (now : FVals X fs) (exec : FVals X fs → Done (FVals X fs)) (body : Bytes)
    (d : List (Str × Node X)) (hb : readFrom (N.text body) = some d) (hr : recv O h fs now { data := d } = .err) :
    ∃ msg, handleRequest N tid accept (apiFunc N O h fs now exec) (some (some body)) = some (⟨400, [], utf8 (clientError msg tid)⟩, 400) := by
  have hf : readBody N (apiFunc N O h fs now exec) (some (some body)) = .err (Errors.httpNewErrorf () () 400 3 (N.recvMsg body) []) := by
    simp only [readBody, apiFunc, hb, hr]
  have hc : Errors.errorCode (some (Errors.httpNewErrorf () () 400 3 (N.recvMsg body) [] : Error)) 500 = 400 := rfl
  refine ⟨errText N (Errors.httpNewErrorf () () 400 3 (N.recvMsg body) []), ?_⟩
  simp only [handleRequest, hf]
  exact error_answer N tid accept _ 400 hc ⟨by decide, by decide⟩

example : (handleRequest NT (lit "t1") [] (apiFunc (X := XT) NT sortedOrder hi hiTy (zeroFields XT hiTy) .ok) (some (some (utf8 (lit "{\"Name\":[1]}"))))).map (fun p => (p.1.status, p.2)) = some (400, 400) := by
  decide +kernel

/-! ### C82: authentication -/

/-- C82 is violated: an API that requires an identity can not be called over http: every request that gets an answer is refused. -/
theorem C82_violated (N : NetExt) (U : Str → Option Str) (tid accept : Str) (O : Order) (fs : Fields) (tmpl : Option (Val X (.struct fs))) (h : AHandler)
    (hh : newHandler U (.ptr (.struct fs) tmpl) = some h) (f : FieldInfo) (hf : f ∈ fs.infos) (ha : IsAuth f) (hreq : IsRequired f)
    (now : FVals X fs) (exec : FVals X fs → Done (FVals X fs)) (body : Bytes) (r : Resp) (m : Int)
    (hr : handleRequest N tid accept (apiFunc N O h fs now exec) (some (some body)) = some (r, m)) : r.status = 400 ∨ r.status = 500 := by
  cases hb : readFrom (X := X) (N.text body) with
  | none => rw [C81_violated N tid accept O h fs now exec body hb] at hr; injection hr with hr; injection hr with hr _; rw [← hr]; exact Or.inr rfl
  | some d =>
    cases hv : recv O h fs now { data := d } with
    | err =>
      obtain ⟨msg, he⟩ := C81_partial N tid accept O h fs now exec body d hb hv
      rw [he] at hr; injection hr with hr; injection hr with hr _; rw [← hr]; exact Or.inl rfl
    | panic => simp [handleRequest, readBody, apiFunc, hb, hv, requestOps] at hr
    | ok obj =>
      obtain ⟨n, hn, _⟩ := C50_auth_required U O fs tmpl h hh now _ obj hv f hf ha hreq
      cases hn

/-- C82: the handler `greet` requires an identity, and is registered. -/
example : registerAPI (X := XT) anyUrl (.ptr (.struct greetTy) (some greetTmpl)) = some (greet, [lit "/greet"]) := by decide +kernel

/-! ### C83: a call over http -/

/-- The request of a client arrives at the server. -/
theorem exchange (N : NetExt) (hN : TextLaw N) (tid : Str) (U : Str → Option Str) (O O' : Order) (fs : Fields)
    (tmpl : Option (Val X (.struct fs))) (h : AHandler) (hh : newHandler U (.ptr (.struct fs) tmpl) = some h) (hu : h.urls ≠ [])
    (client s : FVals X fs) (hreq : request O O' h fs (content fs tmpl) client = .ok s) (exec : FVals X fs → Done (FVals X fs)) :
    ∃ h' d txt u us d', newHandler U (.ptr (.struct fs) (some client)) = some h' ∧ h'.outs = h.outs ∧ send O fs client h'.ins [] = .ok d ∧ encode (.map d) = .ok txt ∧
      h'.urls = u :: us ∧ u ∈ h.urls ∧ readFrom (X := X) (N.text (utf8 txt)) = some d' ∧ recv O' h fs (content fs tmpl) { data := d' } = .ok s ∧
      apiNet N O' tid h fs (content fs tmpl) exec u (utf8 txt) =
        ((requestOps N tid [] (apiFunc N O' h fs (content fs tmpl) exec (utf8 txt))).bind serve).map Prod.fst := by
  obtain ⟨h', hh', hl⟩ := newHandler_any U fs tmpl (some client) h hh
  obtain ⟨d, k1, k2⟩ := bind_ok' hreq
  obtain ⟨d', k3, k4⟩ := bind_ok' k2
  obtain ⟨txt, k5, k6⟩ := overJson_ok k3
  cases hu' : h.urls with
  | nil => exact absurd hu' hu
  | cons u us =>
    refine ⟨h', d, txt, u, us, d', hh', hl.2.2.1.symm, by rw [← hl.2.1]; exact k1, k5, by rw [← hl.2.2.2, hu'], List.mem_cons_self .., by rw [hN]; exact k6, k4, ?_⟩
    simp only [apiNet, hu', List.mem_cons_self, if_true, handleRequest, readBody]

/-- `RegisterAPI` succeeds only if there is a url. -/
theorem registered {U : Str → Option Str} {t : Template X} {h : AHandler} {urls : List Str} (hreg : registerAPI U t = some (h, urls)) :
    newHandler U t = some h ∧ h.urls ≠ [] := by
  unfold registerAPI at hreg
  cases hn : newHandler U t with
  | none => rw [hn] at hreg; cases hreg
  | some k =>
    rw [hn] at hreg
    simp only at hreg
    split at hreg
    · cases hreg
    · rename_i hne
      injection hreg with hreg; injection hreg with hreg _; subst hreg; exact ⟨rfl, hne⟩

/-- A call over http is a call: if the inputs, then the outputs, survive JSON, `exec` sees the inputs of the client and the client gets the outputs. -/
theorem C83_call_partial (hX : Laws X) (N : NetExt) (hN : TextLaw N) (tid : Str) (U : Str → Option Str) (O O' : Order) (fs : Fields)
    (tmpl : Option (Val X (.struct fs))) (h : AHandler) (urls : List Str) (hreg : registerAPI U (.ptr (.struct fs) tmpl) = some (h, urls))
    (hex : ∀ f ∈ fs.infos, f.exported = true) (hau : ∀ f ∈ fs.infos, IsAuth f → ¬ IsRequired f)
    (client : FVals X fs) (hd : DistinctNames IsIn client) (hs : Survive O IsIn client)
    (hr : ∀ j f t (x : Val X t), At client j f t x → IsIn f → IsRequired f → x ≠ zero X t)
    (hz : ∀ j f t (x : Val X t), At client j f t x → IsOut f → x = zero X t)
    (exec : FVals X fs → Done (FVals X fs))
    (hexec : ∀ s, (∀ j f t (x : Val X t), At client j f t x → IsIn f → At s j f t x) → ∃ s', exec s = .ok s' ∧ DistinctNames IsOut s' ∧ Survive O' IsOut s') :
    ∃ s s' client', (∀ j f t (x : Val X t), At client j f t x → IsIn f → At s j f t x) ∧ exec s = .ok s' ∧
      clientAPI N U O fs (apiNet N O' tid h fs (content fs tmpl) exec) client = (client', .ok ()) ∧
      ∀ j f t (x y : Val X t), At s' j f t x → At client j f t y → (IsOut f → At client' j f t x) ∧ (¬ IsOut f → At client' j f t y) := by
  obtain ⟨hh, hu⟩ := registered hreg
  obtain ⟨s, h1, h2⟩ := C52_request hX U O O' fs tmpl h hh hex hau client hd hs hr
  obtain ⟨s', h3, h4, h5⟩ := hexec s h2
  obtain ⟨c', h6, h7⟩ := C52_response hX U O O' fs tmpl h hh hex s' client h4 h5 hz
  refine ⟨s, s', c', h2, h3, ?_, h7⟩
  obtain ⟨h', d, txt, u, us, d', e1, e2, e3, e4, e5, _, e6, e7, e8⟩ := exchange N hN tid U O O' fs tmpl h hh hu client s h1 exec
  obtain ⟨o, k1, k2⟩ := bind_ok' h6
  obtain ⟨o', k3, k4⟩ := bind_ok' k2
  obtain ⟨rt, k5, k6⟩ := overJson_ok k3
  have ef : apiFunc N O' h fs (content fs tmpl) exec (utf8 txt) = .ok (utf8 rt) := by simp only [apiFunc, e6, e7, h3, k1, k5]
  have er : apiNet N O' tid h fs (content fs tmpl) exec u (utf8 txt) = some ⟨200, [(lit "Content-Type", lit "application/json")], utf8 rt⟩ := by
    rw [e8, ef]
    have n1 : ¬ (utf8 rt).length = 0 := by simpa using encode_map_ne k5
    have n2 : ¬((utf8 rt).length > 16 * 1024 ∧ contains (lit "gzip") [] = true) := fun h => by cases h.2
    simp only [requestOps, if_neg n1, if_neg n2, Option.bind_some]
    have := chunks_answer [(lit "Content-Type", lit "application/json")] (utf8 rt) []
    simp only [List.map_cons, List.map_nil, List.cons_append, List.nil_append, List.flatten_cons, List.flatten_nil, List.append_nil] at this
    rw [this]; rfl
  unfold clientAPI
  have hk : clientDo N (some ⟨200, [(lit "Content-Type", lit "application/json")], utf8 rt⟩) =
      .ok ⟨200, [(lit "Content-Type", lit "application/json")], utf8 rt⟩ := (C59_do N _).1 (Or.inl rfl)
  have hne : ¬ ((200 : Int) = 204) := by decide
  have k6' : readFrom (X := X) (N.text (utf8 rt)) = some o' := by rw [hN]; exact k6
  simp only [e1, e3, e4, e5, er, hk, e2, if_neg hne, k6', recvObj_ok k4]

/-- C83: the whole way. -/
example : hiTexts (clientAPI (X := XT) NT anyUrl sortedOrder hiTy (apiNet NT sortedOrder (lit "t") hi hiTy (zeroFields XT hiTy) fun o => .ok (Any.nil, lit "", lit "Hi " ++ (hiTexts o).1, ()))
    (Any.nil, lit "\"Bob\"", lit "", ())).1 = (lit "\"Bob\"", lit "Hi \"Bob\"") := by decide +kernel

/-- And if `exec` fails the client is told, with the code, and its object is as it was. -/
theorem C83_error_partial (hX : Laws X) (N : NetExt) (hN : TextLaw N) (tid : Str) (U : Str → Option Str) (O O' : Order) (fs : Fields)
    (tmpl : Option (Val X (.struct fs))) (h : AHandler) (urls : List Str) (hreg : registerAPI U (.ptr (.struct fs) tmpl) = some (h, urls))
    (hex : ∀ f ∈ fs.infos, f.exported = true) (hau : ∀ f ∈ fs.infos, IsAuth f → ¬ IsRequired f)
    (client : FVals X fs) (hd : DistinctNames IsIn client) (hs : Survive O IsIn client)
    (hr : ∀ j f t (x : Val X t), At client j f t x → IsIn f → IsRequired f → x ≠ zero X t)
    (exec : FVals X fs → Done (FVals X fs)) (e : Error) (hexec : ∀ s, exec s = .err e) (hc : ErrorStatus (Errors.errorCode (some e) 500))
    (h200 : Errors.errorCode (some e) 500 ≠ 200) (h204 : Errors.errorCode (some e) 500 ≠ 204) :
    (clientAPI N U O fs (apiNet N O' tid h fs (content fs tmpl) exec) client).1 = client ∧
    (clientAPI N U O fs (apiNet N O' tid h fs (content fs tmpl) exec) client).2.code = some (Errors.errorCode (some e) 500) := by
  obtain ⟨hh, hu⟩ := registered hreg
  obtain ⟨s, h1, h2⟩ := C52_request hX U O O' fs tmpl h hh hex hau client hd hs hr
  obtain ⟨h', d, txt, u, us, d', e1, e2, e3, e4, e5, _, e6, e7, e8⟩ := exchange N hN tid U O O' fs tmpl h hh hu client s h1 exec
  have ef : apiFunc N O' h fs (content fs tmpl) exec (utf8 txt) = .err e := by simp only [apiFunc, e6, e7, hexec s]
  rw [ef, error_answer N tid [] e _ rfl hc] at e8
  exact (C59_code N U O fs _ client h' d txt u us _ e1 e3 e4 e5 e8).2 h200 h204

example : (clientAPI (X := XT) NT anyUrl sortedOrder hiTy (apiNet NT sortedOrder (lit "t") hi hiTy (zeroFields XT hiTy) fun _ => .err (.httpErr 402 none)) (Any.nil, lit "Bob", lit "old", ())).2.code = some 402 ∧
    hiTexts (clientAPI (X := XT) NT anyUrl sortedOrder hiTy (apiNet NT sortedOrder (lit "t") hi hiTy (zeroFields XT hiTy) fun _ => .err (.httpErr 402 none)) (Any.nil, lit "Bob", lit "old", ())).1 = (lit "Bob", lit "old") := by
  decide +kernel

/-- C83 is violated: if `exec` fails with code 204 then the call succeeds, and the outputs are those of before. -/
theorem C83_code_violated (hX : Laws X) (N : NetExt) (hN : TextLaw N) (tid : Str) (U : Str → Option Str) (O O' : Order) (fs : Fields)
    (tmpl : Option (Val X (.struct fs))) (h : AHandler) (urls : List Str) (hreg : registerAPI U (.ptr (.struct fs) tmpl) = some (h, urls))
    (hex : ∀ f ∈ fs.infos, f.exported = true) (hau : ∀ f ∈ fs.infos, IsAuth f → ¬ IsRequired f)
    (client : FVals X fs) (hd : DistinctNames IsIn client) (hs : Survive O IsIn client)
    (hr : ∀ j f t (x : Val X t), At client j f t x → IsIn f → IsRequired f → x ≠ zero X t)
    (exec : FVals X fs → Done (FVals X fs)) (e : Error) (hexec : ∀ s, exec s = .err e) (hc : Errors.errorCode (some e) 500 = 204) :
    clientAPI N U O fs (apiNet N O' tid h fs (content fs tmpl) exec) client = (client, .ok ()) := by
  obtain ⟨hh, hu⟩ := registered hreg
  obtain ⟨s, h1, h2⟩ := C52_request hX U O O' fs tmpl h hh hex hau client hd hs hr
  obtain ⟨h', d, txt, u, us, d', e1, e2, e3, e4, e5, _, e6, e7, e8⟩ := exchange N hN tid U O O' fs tmpl h hh hu client s h1 exec
  have ef : apiFunc N O' h fs (content fs tmpl) exec (utf8 txt) = .err e := by simp only [apiFunc, e6, e7, hexec s]
  rw [ef, error_answer N tid [] e 204 hc (by unfold ErrorStatus; omega)] at e8
  exact (C59_code N U O fs _ client h' d txt u us _ e1 e3 e4 e5 e8).1 rfl

/-- `struct { R any "url"; Page struct { Next string "omitempty" } "out" }` -/
def bookTy : Fields :=
  .cons { name := lit "R", url := lit "/book" } .any <|
  .cons { name := lit "Page", api := lit "out" } (.struct (.cons { name := lit "Next", tag := lit ",omitempty" } .string .nil)) .nil

/-- Its handler. -/
def book : AHandler := (newHandler (X := XT) anyUrl (.ptr (.struct bookTy) none)).getD {}

/-- The text in the page, and whether the call succeeded. -/
def bookText : FVals XT bookTy × Done Unit → Str × Bool
  | ((_, (s, _), _), .ok _) => (s, true)
  | ((_, (s, _), _), _) => (s, false)

/-- C83 is violated: an object used for a second call keeps what the first response had and the second has not. -/
theorem C83_stale_violated : registerAPI (X := XT) anyUrl (.ptr (.struct bookTy) none) = some (book, [lit "/book"]) ∧
    bookText (clientAPI (X := XT) NT anyUrl sortedOrder bookTy (apiNet NT sortedOrder (lit "t") book bookTy (zeroFields XT bookTy) fun _ => .ok (Any.nil, (lit "", ()), ()))
      (Any.nil, (lit "2", ()), ())) = (lit "2", true) := by
  decide +kernel

/-! ### C84: panics of the client -/

/-- C84 is violated: without a `url` tag the client panics, whatever the network does. -/
theorem C84_violated (N : NetExt) (U : Str → Option Str) (O : Order) (fs : Fields) (net : Str → Bytes → Option Resp) (obj : FVals X fs) (h : AHandler)
    (d : List (Str × Node X)) (s : Str) (hh : newHandler (X := X) U (.ptr (.struct fs) (some obj)) = some h) (hd : send O fs obj h.ins [] = .ok d)
    (he : encode (.map d) = .ok s) (hu : ∀ f ∈ fs.infos, f.url = []) : clientAPI N U O fs net obj = (obj, .panic) := by
  have hurls : h.urls = [] := by
    obtain ⟨_, _, _, _, _, h6⟩ := scan_some U fs obj 0 {} h hh
    rw [h6]
    simp only [List.nil_append, List.filterMap_eq_nil_iff]
    intro a ha
    obtain ⟨j, f, t, x, _, h7, h8, h9⟩ := collect_mem U _ fs obj 0 a ha
    rw [((C53_words U f).2 a.tag h8).2.2.2.2.2, if_pos (hu f (at_info (obj := obj) h7))]
  unfold clientAPI
  simp only [hh, hd, he, hurls]

/-- An object of one input, without an address. -/
example (net : Str → Bytes → Option Resp) : (clientAPI (X := XT) NT anyUrl sortedOrder (.cons { name := lit "Name", api := lit "in" } .string .nil) net (lit "Bob", ())).2 = .panic := by
  have := C84_violated (X := XT) NT anyUrl sortedOrder (.cons { name := lit "Name", api := lit "in" } .string .nil) net (lit "Bob", ())
    ((newHandler (X := XT) anyUrl (.ptr (.struct (.cons { name := lit "Name", api := lit "in" } .string .nil)) none)).getD {}) [(lit "Name", .str (lit "Bob"))] (lit "{\"Name\":\"Bob\"}")
    (by decide +kernel) (by decide +kernel) (by decide +kernel) (by decide +kernel)
  rw [this]

/-- A described field is a field of every object. -/
theorem infos_at : ∀ (fs : Fields) (obj : FVals X fs) (f : FieldInfo), f ∈ fs.infos → ∃ j t x, At obj j f t x
  | .nil, _, _, h => by cases h
  | .cons g t fs, (v, vs), f, h => by
    rcases List.mem_cons.1 h with rfl | h
    · exact ⟨0, t, v, rfl⟩
    · obtain ⟨j, u, x, hj⟩ := infos_at fs vs f h
      exact ⟨j + 1, u, x, hj⟩

/-- The type of a field of a struct that marshals safely does so. -/
theorem at_marshalSafe : ∀ {fs : Fields} {obj : FVals X fs} {j : Nat} {f : FieldInfo} {t : Ty} {x : Val X t}, At obj j f t x → fs.marshalSafe = true → f.exported = true →
    t.marshalSafe = true
  | .nil, _, _, _, _, _, h, _, _ => by cases h
  | .cons g u fs, (y, ys), 0, f, t, x, h, hs, he => by
    simp only [At, getField, Option.some.injEq, Prod.mk.injEq] at h
    obtain ⟨rfl, h⟩ := h
    obtain ⟨rfl, _⟩ := Sigma.mk.inj h
    simp only [Fields.marshalSafe, Bool.and_eq_true, Bool.or_eq_true, Bool.not_eq_true'] at hs
    rcases hs.1 with h | h
    · rw [he] at h; cases h
    · exact h.2
  | .cons g u fs, (_, ys), j + 1, f, t, x, h, hs, he => by
    simp only [Fields.marshalSafe, Bool.and_eq_true] at hs
    exact at_marshalSafe (fs := fs) (obj := ys) (j := j) h hs.2 he

theorem send_no_panic (O : Order) (fs : Fields) (hsafe : fs.marshalSafe = true) (hex : ∀ f ∈ fs.infos, f.exported = true) (obj : FVals X fs) :
    ∀ (l : List HField) (d : List (Str × Node X)), (∀ a ∈ l, ∃ f t x, At obj a.i f t x) → send O fs obj l d ≠ .panic
  | [], _, _ => by intro h; cases h
  | a :: l, d, h => by
    obtain ⟨f, t, x, h1⟩ := h a (List.mem_cons_self ..)
    have h1' : getField fs a.i obj = some (f, ⟨t, x⟩) := h1
    simp only [send, h1', marshalField, hex f (at_info h1), if_true]
    have hm := C74_partial O t x (at_marshalSafe h1 hsafe (hex f (at_info h1)))
    cases hc : marshal O t x with
    | panic => exact absurd hc hm
    | err => intro h; cases h
    | ok n => exact send_no_panic O fs hsafe hex obj l _ fun b hb => h b (List.mem_cons_of_mem _ hb)

theorem clientRecv_no_panic (O : Order) (fs : Fields) (data : List (Str × Node X)) : ∀ (l : List HField) (v : FVals X fs),
    (∀ a ∈ l, ∀ v : FVals X fs, ∃ f t x, At v a.i f t x ∧ unmarshalField O data a.tag.name f t x ≠ .panic) → clientRecv O fs data l v ≠ .panic
  | [], v, _ => by intro h; cases h
  | a :: l, v, h => by
    obtain ⟨f, t, x, h1, h2⟩ := h a (List.mem_cons_self ..) v
    have hm := modField_no_panic (unmarshalField O data a.tag.name) fs a.i v f t x h1 h2
    simp only [clientRecv]
    cases hc : modField (unmarshalField O data a.tag.name) fs a.i v with
    | panic => exact absurd hc hm
    | err => intro h; cases h
    | ok w => exact clientRecv_no_panic O fs data l w fun b hb => h b (List.mem_cons_of_mem _ hb)

theorem readFrom_clean {body : Str} {d : List (Str × Node X)} (hb : readFrom body = some d) (k : Str) (n : Node X) (hk : lookupKey k d = some n) : Clean n := by
  unfold readFrom at hb
  split at hb
  · injection hb with hb; rw [← hb] at hk; cases hk
  · split at hb
    · rename_i m hd
      injection hb with hb
      subst hb
      exact clean_map _ (clean_decoded body _ hd) (k, n) (mem_of_lookup hk)
    · cases hb

/-- C84: with a `url`, all fields exported and of types that are marshalled and unmarshalled safely, `Client.API` does not panic, whatever the network does. -/
theorem C84_partial (N : NetExt) (U : Str → Option Str) (O : Order) (fs : Fields) (net : Str → Bytes → Option Resp) (obj : FVals X fs)
    (hurl : ∃ f ∈ fs.infos, f.url ≠ []) (hex : ∀ f ∈ fs.infos, f.exported = true) (hms : fs.marshalSafe = true) (hus : fs.unmarshalSafe = true) :
    (clientAPI N U O fs net obj).2 ≠ .panic := by
  unfold clientAPI
  split
  · intro h; cases h
  · rename_i h hh
    obtain ⟨hok, hin, hout, _⟩ := newHandler_lists U fs (some obj) h hh
    have hsend := send_no_panic O fs hms hex obj h.ins [] fun a ha => by
      rw [hin] at ha
      obtain ⟨f, t, x, g1, _⟩ := listed_at U _ fs _ obj a ha
      exact ⟨f, t, x, g1⟩
    split
    · intro h; cases h
    · rename_i hc; exact absurd hc hsend
    · split
      · intro h; cases h
      · split
        · rename_i hu
          exfalso
          obtain ⟨f, hf, hne⟩ := hurl
          obtain ⟨tag, ht⟩ := hok f hf
          have htu := ((C53_words U f).2 tag ht).2.2.2.2.2
          rw [if_neg hne] at htu
          obtain ⟨_, _, _, _, _, h6⟩ := scan_some U fs obj 0 {} h hh
          rw [hu] at h6
          simp only [List.nil_append] at h6
          have hj : ∃ j t x, At obj j f t x := infos_at fs obj f hf
          obtain ⟨j, t, x, hj⟩ := hj
          have hsome : tag.url.isSome = true := by
            have hg := ((C53_words U f).1.1 ⟨tag, ht⟩).2
            rw [htu]
            exact hg.resolve_left hne
          have hm := collect_of_getField U (fun t _ => t.url.isSome) fs obj 0 j f t x tag hok hj ht hsome
          obtain ⟨p, hp⟩ := Option.isSome_iff_exists.1 hsome
          have : p ∈ (collect U (fun t _ => t.url.isSome) fs obj 0).filterMap (·.tag.url) := List.mem_filterMap.2 ⟨_, hm, hp⟩
          rw [← h6] at this
          cases this
        · split
          · rename_i hd
            unfold clientDo at hd
            repeat' split at hd
            all_goals cases hd
          · intro h; cases h
          · split
            · intro h; cases h
            · split
              · intro h; cases h
              · rename_i d hd
                have hr := clientRecv_no_panic O fs d h.outs obj fun a ha v => by
                  rw [hout] at ha
                  obtain ⟨f, t, x, g1, _⟩ := listed_at U _ fs _ v a ha
                  refine ⟨f, t, x, g1, ?_⟩
                  unfold unmarshalField
                  split
                  · intro h; cases h
                  · rename_i n hn
                    rw [hex f (at_info g1), if_pos rfl]
                    exact outRes_no_panic _ (unmarshal_no_panic (encH X) O t n x (at_safe g1 hus (hex f (at_info g1))) (readFrom_clean hd _ n hn))
                rw [recvObj_res] at hr
                cases hq : recvObj O fs d h.outs obj with
                | mk a s =>
                  rw [hq] at hr
                  cases s with
                  | ok => intro h; cases h
                  | err => intro h; cases h
                  | panic => exact absurd rfl hr

example (net : Str → Bytes → Option Resp) (a b : Str) : (clientAPI (X := XT) NT anyUrl sortedOrder hiTy net (Any.nil, a, b, ())).2 ≠ .panic :=
  C84_partial NT anyUrl sortedOrder hiTy net _ (by decide +kernel) (by decide +kernel) (by decide) (by decide)

end Verif.Http

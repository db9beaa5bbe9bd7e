import Verif.Api.Skew
import Verif.Http.ClientProps
/-!
# Calls over http between different releases (http/client.go L75-126, http/server.go L141-217) (C183)

`Api/Skew.lean` over `Client.API` and a server where another version of the type is registered.
-/
set_option autoImplicit false
namespace Verif.Http.Skew
open Verif.Strconv Verif.Enc Verif.Api Verif.Enc.Versions Verif.Api.Skew

variable {X : Ext} [DecidableEq X.F] [DecidableEq X.T]

/-- What a client sends, and what becomes of it at the server. -/
theorem exchange2 (N : NetExt) (hN : TextLaw N) (tid : Str) (U : Str → Option Str) (O O' : Order) (fs fs' : Fields) (tmpl : Option (Val X (.struct fs))) (now : FVals X fs') (h h' : AHandler)
    (hh : newHandler U (.ptr (.struct fs) tmpl) = some h) (u : Str) (us : List Str) (hu : h.urls = u :: us) (hmem : u ∈ h'.urls) (client : FVals X fs) (d d' : List (Str × Node X))
    (hd : send O fs client h.ins [] = .ok d) (hd' : overJson d = .ok d') (exec : FVals X fs' → Done (FVals X fs')) :
    ∃ hc txt, newHandler U (.ptr (.struct fs) (some client)) = some hc ∧ hc.outs = h.outs ∧ send O fs client hc.ins [] = .ok d ∧ encode (.map d) = .ok txt ∧
      hc.urls = u :: us ∧ readFrom (X := X) (N.text (utf8 txt)) = some d' ∧
      apiNet N O' tid h' fs' now exec u (utf8 txt) = ((requestOps N tid [] (apiFunc N O' h' fs' now exec (utf8 txt))).bind serve).map Prod.fst := by
  obtain ⟨hc, hhc, hl⟩ := newHandler_any U fs tmpl (some client) h hh
  obtain ⟨txt, k5, k6⟩ := overJson_ok hd'
  refine ⟨hc, txt, hhc, hl.2.2.1.symm, by rw [← hl.2.1]; exact hd, k5, by rw [← hl.2.2.2, hu], by rw [hN]; exact k6, ?_⟩
  simp only [apiNet, hmem, if_true, handleRequest, readBody]

/-- C183: the whole call over http, to a server of another release that serves the client's url. -/
theorem C183_http (hX : Laws X) (N : NetExt) (hN : TextLaw N) (tid : Str) (U : Str → Option Str) (O O' : Order) (fs fs' : Fields) (tmpl : Option (Val X (.struct fs)))
    (tmpl' : Option (Val X (.struct fs'))) (h h' : AHandler) (hh : newHandler U (.ptr (.struct fs) tmpl) = some h) (urls : List Str)
    (hreg : registerAPI U (.ptr (.struct fs') tmpl') = some (h', urls)) (u : Str) (us : List Str) (hu : h.urls = u :: us) (hmem : u ∈ h'.urls)
    (hex : ∀ f ∈ fs.infos, f.exported = true) (hex' : ∀ f ∈ fs'.infos, f.exported = true) (hau : ∀ f ∈ fs'.infos, IsAuth f → ¬ IsRequired f)
    (client : FVals X fs) (hs : Survive O IsIn client) (hfit : Fits IsIn client fs')
    (hr : ∀ (j : Nat) (f : FieldInfo) (t : Ty), At (zeroFields X fs') j f t (zero X t) → IsIn f → IsRequired f → ∀ y, Carried IsIn client (tagName f) t y → y ≠ zero X t)
    (hz : ∀ j f t (x : Val X t), At client j f t x → IsOut f → x = zero X t) (exec : FVals X fs' → Done (FVals X fs'))
    (hexec : ∀ s, (∀ j f t (y : Val X t), At s j f t y → IsIn f → Carried IsIn client (tagName f) t y) → ∃ s', exec s = .ok s' ∧ Survive O' IsOut s' ∧ Fits IsOut s' fs) :
    ∃ s s' client', (∀ j f t (y : Val X t), At s j f t y → IsIn f → Carried IsIn client (tagName f) t y) ∧ exec s = .ok s' ∧
      clientAPI N U O fs (apiNet N O' tid h' fs' (content fs' tmpl') exec) client = (client', .ok ()) ∧
      ∀ j f t (x : Val X t), At client' j f t x → (IsOut f → Carried IsOut s' (tagName f) t x) ∧ (¬ IsOut f → At client j f t x) := by
  obtain ⟨hh', _⟩ := registered hreg
  obtain ⟨s, h1, h2⟩ := C183_request hX U O O' fs fs' tmpl tmpl' h h' hh hh' hex hex' hau client hs hfit hr
  obtain ⟨s', h3, h4, h5⟩ := hexec s h2
  obtain ⟨c', h6, h7⟩ := C183_response hX U O O' fs fs' tmpl tmpl' h h' hh hh' hex hex' s' client h4 h5 hz
  refine ⟨s, s', c', h2, h3, ?_, h7⟩
  obtain ⟨d, g1, g2⟩ := bind_ok' h1
  obtain ⟨d', g3, g4⟩ := bind_ok' g2
  obtain ⟨hc, txt, e1, e2, e3, e4, e5, e6, e8⟩ := exchange2 N hN tid U O O' fs fs' tmpl (content fs' tmpl') h h' hh u us hu hmem client d d' g1 g3 exec
  obtain ⟨o, k1, k2⟩ := bind_ok' h6
  obtain ⟨o', k3, k4⟩ := bind_ok' k2
  obtain ⟨rt, k5, k6⟩ := overJson_ok k3
  have ef : apiFunc N O' h' fs' (content fs' tmpl') exec (utf8 txt) = .ok (utf8 rt) := by simp only [apiFunc, e6, g4, h3, k1, k5]
  have er : apiNet N O' tid h' fs' (content fs' tmpl') exec u (utf8 txt) = some ⟨200, [(lit "Content-Type", lit "application/json")], utf8 rt⟩ := by
    rw [e8, ef]
    have n1 : ¬ (utf8 rt).length = 0 := by simpa using encode_map_ne k5
    have n2 : ¬((utf8 rt).length > 16 * 1024 ∧ contains (lit "gzip") [] = true) := fun h => by cases h.2
    simp only [requestOps, if_neg n1, if_neg n2, Option.bind_some]
    have := chunks_answer [(lit "Content-Type", lit "application/json")] (utf8 rt) []
    simp only [List.map_cons, List.map_nil, List.cons_append, List.nil_append, List.flatten_cons, List.flatten_nil, List.append_nil] at this
    rw [this]; rfl
  unfold clientAPI
  have hk : clientDo N (some ⟨200, [(lit "Content-Type", lit "application/json")], utf8 rt⟩) =
      .ok ⟨200, [(lit "Content-Type", lit "application/json")], utf8 rt⟩ := (C59_do N _).1 (Or.inl rfl)
  have hne : ¬ ((200 : Int) = 204) := by decide
  have k6' : readFrom (X := X) (N.text (utf8 rt)) = some o' := by rw [hN]; exact k6
  simp only [e1, e3, e4, e5, er, hk, e2, if_neg hne, k6', recvObj_ok k4]

/-- C183: a client that does not have an input which the server requires is told so, its object is as it was, and what the server would have done does not matter. -/
theorem C183_http_refused (hX : Laws X) (N : NetExt) (hN : TextLaw N) (tid : Str) (U : Str → Option Str) (O O' : Order) (fs fs' : Fields) (tmpl : Option (Val X (.struct fs)))
    (tmpl' : Option (Val X (.struct fs'))) (h h' : AHandler) (hh : newHandler U (.ptr (.struct fs) tmpl) = some h) (urls : List Str)
    (hreg : registerAPI U (.ptr (.struct fs') tmpl') = some (h', urls)) (u : Str) (us : List Str) (hu : h.urls = u :: us) (hmem : u ∈ h'.urls)
    (hex : ∀ f ∈ fs.infos, f.exported = true) (client : FVals X fs) (hs : Survive O IsIn client)
    (j : Nat) (f : FieldInfo) (t : Ty) (hf : At (zeroFields X fs') j f t (zero X t)) (hi : IsIn f) (hreq : IsRequired f) (hna : ¬ IsAuth f)
    (hno : ∀ (j : Nat) (g : FieldInfo) (t : Ty) (x : Val X t), At client j g t x → IsIn g → tagName g ≠ tagName f) (exec : FVals X fs' → Done (FVals X fs')) :
    (clientAPI N U O fs (apiNet N O' tid h' fs' (content fs' tmpl') exec) client).1 = client ∧
    (clientAPI N U O fs (apiNet N O' tid h' fs' (content fs' tmpl') exec) client).2.failed = true ∧
    ∀ exec', clientAPI N U O fs (apiNet N O' tid h' fs' (content fs' tmpl') exec) client = clientAPI N U O fs (apiNet N O' tid h' fs' (content fs' tmpl') exec') client := by
  obtain ⟨hh', _⟩ := registered hreg
  obtain ⟨hok, hin, _⟩ := newHandler_lists U fs tmpl h hh
  obtain ⟨d, d', g1, g3, _⟩ := cross2 hX U (fun t => t.isIn) IsIn (fun f tag ht => ((C53_words U f).2 tag ht).2.1) O O' fs (content fs tmpl) client hok hex hs
  rw [← hin] at g1
  have hn : ∀ server, recv O' h' fs' (content fs' tmpl') { data := d' } ≠ .ok server := by
    intro server hc
    refine C183_refused U O O' fs fs' tmpl tmpl' h h' hh hh' hX hex client hs (content fs' tmpl') j f t hf hi hreq hna hno server ?_
    unfold requestTo
    rw [g1]
    show (overJson d).bind _ = _
    rw [g3]
    exact hc
  have main : ∀ e : FVals X fs' → Done (FVals X fs'), ∃ err, clientAPI N U O fs (apiNet N O' tid h' fs' (content fs' tmpl') e) client = (client, .err err) ∧
      ∀ e' : FVals X fs' → Done (FVals X fs'), clientAPI N U O fs (apiNet N O' tid h' fs' (content fs' tmpl') e') client = (client, .err err) := by
    have go : ∃ err, ∀ e : FVals X fs' → Done (FVals X fs'), clientAPI N U O fs (apiNet N O' tid h' fs' (content fs' tmpl') e) client = (client, .err err) := by
      obtain ⟨hc, txt, e1, e2, e3, e4, e5, e6, _⟩ := exchange2 N hN tid U O O' fs fs' tmpl (content fs' tmpl') h h' hh u us hu hmem client d d' g1 g3 exec
      have e8 := fun e : FVals X fs' → Done (FVals X fs') => show apiNet N O' tid h' fs' (content fs' tmpl') e u (utf8 txt) = ((requestOps N tid [] (apiFunc N O' h' fs' (content fs' tmpl') e (utf8 txt))).bind serve).map Prod.fst by
        simp only [apiNet, hmem, if_true, handleRequest, readBody]
      cases hv : recv O' h' fs' (content fs' tmpl') { data := d' } with
      | ok server => exact absurd hv (hn server)
      | panic =>
        refine ⟨Errors.newErrorf () () 12 (N.sendMsg []) [Errors.newErrorf () () 5 (N.sendMsg []) [.leaf 6 (N.sendMsg [])]], fun e => ?_⟩
        have ef : apiFunc N O' h' fs' (content fs' tmpl') e (utf8 txt) = .panic := by simp only [apiFunc, e6, hv]
        have er := e8 e
        rw [ef] at er
        have er : apiNet N O' tid h' fs' (content fs' tmpl') e u (utf8 txt) = none := er
        unfold clientAPI
        simp only [e1, e3, e4, e5, er, clientDo]
      | err =>
        have hc400 : Errors.errorCode (some (Errors.httpNewErrorf () () 400 3 (N.recvMsg (utf8 txt)) [] : Error)) 500 = 400 := rfl
        refine ⟨Errors.newErrorf () () 12 (N.sendMsg []) [.httpErr 400 (some (.leaf 7 (N.codeText 400)))], fun e => ?_⟩
        have ef : apiFunc N O' h' fs' (content fs' tmpl') e (utf8 txt) = .err (Errors.httpNewErrorf () () 400 3 (N.recvMsg (utf8 txt)) []) := by simp only [apiFunc, e6, hv]
        have er := e8 e
        rw [ef, error_answer N tid [] _ 400 hc400 ⟨by decide, by decide⟩] at er
        have ne : ¬ ((400 : Int) = 200 ∨ (400 : Int) = 204) := by decide
        unfold clientAPI
        simp only [e1, e3, e4, e5, er, Option.map_some, clientDo, if_neg ne]
    obtain ⟨err, hg⟩ := go
    exact fun e => ⟨err, hg e, hg⟩
  obtain ⟨err, m1, m2⟩ := main exec
  exact ⟨by rw [m1], by rw [m1]; rfl, fun e' => by rw [m1, m2]⟩

/-- An old client calls a new server over http, and is greeted. -/
example : registerAPI (X := XT) anyUrl (.ptr (.struct new) none) = some (newH, [lit "/greet"]) ∧
    heard (.ok (clientAPI (X := XT) NT anyUrl sortedOrder old (apiNet NT sortedOrder (lit "t") newH new (zeroFields XT new) fun s => match answer s with | .ok s => .ok s | _ => .panic)
      (Any.nil, lit "Bob", (-3 : BitVec 8), lit "", ())).1) = some (lit "Bob", lit "Hello Bob") := by decide +kernel

end Verif.Http.Skew

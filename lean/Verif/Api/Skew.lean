import Verif.Api.CallProps
import Verif.Enc.Versions
/-!
# Clients and servers of different releases (api/handler.go L196-272, api/json.go L23-89) (C183)

A client built with one version of the struct of an API calls a server built with another one. Both sides are as in Api/Model.lean, with a struct and a handler each; `Version` and `Seen` are those of
Enc/Versions.lean.
-/
set_option autoImplicit false
namespace Verif.Api.Skew
open Verif.Strconv Verif.Enc Verif.Enc.Versions

variable {X : Ext} [DecidableEq X.F] [DecidableEq X.T]

/-! ### the two halves of a call -/

/-- `Client.Send` of one release, JSON, `Server.Recv` of another one. api/handler.go L209-248, api/json.go L23-51. -/
def requestTo (O O' : Order) (h h' : AHandler) (fs fs' : Fields) (now : FVals X fs') (client : FVals X fs) : Res (FVals X fs') :=
  (send O fs client h.ins []).bind fun d => (overJson d).bind fun d => recv O' h' fs' now { data := d }

/-- `Server.Send` of one release, JSON, `Client.Recv` of another one. api/handler.go L250-272, api/json.go L23-51. -/
def responseTo (O O' : Order) (h h' : AHandler) (fs fs' : Fields) (server : FVals X fs') (client : FVals X fs) : Res (FVals X fs) :=
  (send O' fs' server h'.outs []).bind fun d => (overJson d).bind fun d => clientRecv O fs d h.outs client

/-- The call. api/test.go L10-40. -/
def callTo (O O' : Order) (h h' : AHandler) (fs fs' : Fields) (now : FVals X fs') (exec : FVals X fs' → Res (FVals X fs')) (client : FVals X fs) : Res (FVals X fs) :=
  (requestTo O O' h h' fs fs' now client).bind fun s => (exec s).bind fun s => responseTo O O' h h' fs fs' s client

/-! ### specification -/

/-- Fields of one name that one side sends and the other reads have types that are versions of each other. -/
def Fits (P : FieldInfo → Prop) {fs : Fields} (src : FVals X fs) (fs' : Fields) : Prop :=
  ∀ (j : Nat) (f : FieldInfo) (t : Ty) (x : Val X t), At src j f t x → P f → ∀ (j' : Nat) (f' : FieldInfo) (t' : Ty), At (zeroFields X fs') j' f' t' (zero X t') → P f' → tagName f = tagName f' → Version t t'

/-- What a field called `k` gets from the other side: what is seen there of a field of that name, or zero if there is none. -/
def Carried (P : FieldInfo → Prop) {fs : Fields} (src : FVals X fs) (k : Str) (t' : Ty) (y : Val X t') : Prop :=
  (∃ (j : Nat) (f : FieldInfo) (t : Ty) (x : Val X t), At src j f t x ∧ P f ∧ tagName f = k ∧ Seen t t' x y) ∨
  ((∀ (j : Nat) (f : FieldInfo) (t : Ty) (x : Val X t), At src j f t x → P f → tagName f ≠ k) ∧ y = zero X t')

/-! ### lemmas -/

theorem lenient : Lenient (encH X) := fun _ h => nomatch h

theorem at_zero {fs : Fields} {v : FVals X fs} {j : Nat} {f : FieldInfo} {t : Ty} {x : Val X t} (h : At v j f t x) : At (zeroFields X fs) j f t (zero X t) := getField_zero fs v j f t x h

/-- Fields that are listed cross the wire into any version of them. -/
theorem cross2 (hX : Laws X) (U : Str → Option Str) (p : ATag → Bool) (P : FieldInfo → Prop) (hP : ∀ f tag, parseTags U f = some tag → (p tag = true ↔ P f)) (O O' : Order) (fs : Fields) (v obj : FVals X fs)
    (hok : TagsOk U fs) (hex : ∀ f ∈ fs.infos, f.exported = true) (hs : Survive O P obj) :
    ∃ d d', send O fs obj (collect U (fun t _ => p t) fs v 0) [] = .ok d ∧ overJson d = .ok d' ∧
      (∀ k n, lookupKey k d' = some n → ∃ (j : Nat) (f : FieldInfo) (t : Ty) (x : Val X t), At obj j f t x ∧ P f ∧ tagName f = k) ∧
      ∀ (k : Str) (f' : FieldInfo) (t' : Ty), f'.exported = true → (∀ (j : Nat) (f : FieldInfo) (t : Ty) (x : Val X t), At obj j f t x → P f → tagName f = k → Version t t') →
        ∃ y, unmarshalField O' d' k f' t' (zero X t') = .ok y ∧ Carried P obj k t' y := by
  have hl : ∀ a ∈ collect U (fun t _ => p t) fs v 0, ∃ f t x, At obj a.i f t x ∧ parseTags U f = some a.tag ∧ P f := by
    intro a ha
    obtain ⟨f, t, x, h1, h2⟩ := listed_at U _ fs v obj a ha
    exact ⟨f, t, x, h1, h2, (hP f a.tag h2).1 ((listed_iff U p fs v obj hok a.i f t x h1 a.tag h2).2 a ha rfl).2⟩
  have hmarsh : ∀ (j : Nat) (f : FieldInfo) (t : Ty) (x : Val X t), At obj j f t x → P f → ∃ n, marshal O t x = .ok n ∧ Good n ∧ n.depth < maxDepth ∧ unmarshal (encH X) O' t n.norm (zero X t) = .done x ∧
      Reads (encH X) O' t n.norm := by
    intro j f t x h1 h2
    obtain ⟨hfa, hde⟩ := hs j f t x h1 h2
    obtain ⟨n, hm, hu⟩ := round hX true O O' (encH X) t x hfa
    exact ⟨n, hm, marshal_good hX O t x n hfa hm, hde n hm, hu, carry hX true O O' (encH X) lenient t x n hfa hm⟩
  obtain ⟨d, hd⟩ := send_succeeds O fs obj (collect U (fun t _ => p t) fs v 0) [] fun a ha => by
    obtain ⟨f, t, x, h1, h2, h3⟩ := hl a ha
    obtain ⟨n, hm, _⟩ := hmarsh a.i f t x h1 h3
    exact ⟨f, t, x, n, h1, hex f (at_info h1), hm⟩
  obtain ⟨k1, k2, k3⟩ := send_keys O fs obj _ [] d hd
  have hsorted := k1 (by simp [SortedKeys])
  have hentry : ∀ k n, lookupKey k d = some n → ∃ j f t x, At obj j f t x ∧ P f ∧ tagName f = k ∧ marshal O t x = .ok n := by
    intro k n hk
    rcases k3 k n hk with ⟨h, _⟩ | ⟨l1, a, l2, f, t, x, e, h1, _, h3, _, h5⟩
    · simp [lookupKey] at h
    · obtain ⟨f', t', x', g1, g2, g3⟩ := hl a (by rw [e]; simp)
      obtain ⟨rfl, rfl⟩ := at_inj g1 h3
      exact ⟨a.i, f', t', x, h3, g3, ((C53_words U f').2 _ g2).1.symm.trans h1, h5⟩
  have hgood : ∀ e ∈ d, Good e.2 ∧ e.2.depth < maxDepth := by
    rintro ⟨k, n⟩ he
    obtain ⟨j, f, t, x, h1, h2, _, h4⟩ := hentry k n (lookup_of_mem hsorted he)
    obtain ⟨n', hm, hg, hde, _⟩ := hmarsh j f t x h1 h2
    rw [h4] at hm
    injection hm with hm
    subst hm
    exact ⟨hg, hde⟩
  refine ⟨d, Node.mapNorm d, hd, overJson_ok hX d hsorted (fun e he => (hgood e he).1) (fun e he => (hgood e he).2), ?_, ?_⟩
  · intro k n hk
    rw [lookup_mapNorm] at hk
    cases hd : lookupKey k d with
    | none => rw [hd] at hk; exact nomatch hk
    | some m =>
      obtain ⟨j, f, t, x, h1, h2, h3, _⟩ := hentry k m hd
      exact ⟨j, f, t, x, h1, h2, h3⟩
  intro k f' t' hx hv
  unfold unmarshalField
  rw [lookup_mapNorm]
  cases hk : lookupKey k d with
  | none =>
    refine ⟨_, rfl, .inr ⟨fun j f t x h1 h2 h3 => ?_, rfl⟩⟩
    obtain ⟨tag, ht⟩ := hok f (at_info h1)
    have hm := (listed_iff U p fs v obj hok j f t x h1 tag ht).1 ((hP f tag ht).2 h2)
    exact ((k2 k).1 hk).2 _ hm (((C53_words U f).2 tag ht).1.trans h3)
  | some n =>
    obtain ⟨j, f, t, x, h1, h2, h3, h4⟩ := hentry k n hk
    obtain ⟨n', hm, _, _, hu, hr⟩ := hmarsh j f t x h1 h2
    rw [h4] at hm
    injection hm with hm
    subst hm
    obtain ⟨r1, r2⟩ := hr.2 t' (hv j f t x h1 h2 h3)
    rw [hu] at r2
    refine ⟨(unmarshal (encH X) O' t' n.norm (zero X t')).val, ?_, .inl ⟨j, f, t, x, h1, h2, h3, r2⟩⟩
    simp only [Option.map_some, hx, if_true, outRes, r1]

/-! ### the theorems -/

/-- C183: the request of a client of another release arrives: each input of the server is what is seen of the client's input of that name, or zero if the client has none. -/
theorem C183_request (hX : Laws X) (U : Str → Option Str) (O O' : Order) (fs fs' : Fields) (tmpl : Option (Val X (.struct fs))) (tmpl' : Option (Val X (.struct fs'))) (h h' : AHandler)
    (hh : newHandler U (.ptr (.struct fs) tmpl) = some h) (hh' : newHandler U (.ptr (.struct fs') tmpl') = some h') (hex : ∀ f ∈ fs.infos, f.exported = true) (hex' : ∀ f ∈ fs'.infos, f.exported = true)
    (hau : ∀ f ∈ fs'.infos, IsAuth f → ¬ IsRequired f) (client : FVals X fs) (hs : Survive O IsIn client) (hfit : Fits IsIn client fs')
    (hr : ∀ (j : Nat) (f : FieldInfo) (t : Ty), At (zeroFields X fs') j f t (zero X t) → IsIn f → IsRequired f → ∀ y, Carried IsIn client (tagName f) t y → y ≠ zero X t) :
    ∃ server, requestTo O O' h h' fs fs' (content fs' tmpl') client = .ok server ∧ ∀ j f t (y : Val X t), At server j f t y → IsIn f → Carried IsIn client (tagName f) t y := by
  obtain ⟨hok, hin, _⟩ := newHandler_lists U fs tmpl h hh
  obtain ⟨hok', hin', _, hinit, hauth⟩ := newHandler_lists U fs' tmpl' h' hh'
  have hw := fun f tag ht => (C53_words U f).2 tag ht
  obtain ⟨d, d', hsend, hover, hkeys, hcross⟩ := cross2 hX U (fun t => t.isIn) IsIn (fun f tag ht => (hw f tag ht).2.1) O O' fs (content fs tmpl) client hok hex hs
  rw [← hin] at hsend
  have hp : h'.ins.Pairwise fun a b => a.i ≠ b.i := by rw [hin']; exact collect_pairwise U _ fs' _ 0
  obtain ⟨v1, h1⟩ := recvInit_succeeds fs' (content fs' tmpl') h'.init (zeroFields X fs') fun j hj => by
    rw [hinit, List.mem_map] at hj
    obtain ⟨a, ha, rfl⟩ := hj
    obtain ⟨f, t, x, g1, _⟩ := listed_at U _ fs' _ (content fs' tmpl') a ha
    exact ⟨f, t, x, g1, hex' f (at_info g1)⟩
  have hzero : ∀ a ∈ h'.ins, ∃ f t, At v1 a.i f t (zero X t) ∧ parseTags U f = some a.tag ∧ IsIn f := by
    intro a ha
    rw [hin'] at ha
    obtain ⟨f', t', x', g1, g2⟩ := listed_at U _ fs' _ (content fs' tmpl') a ha
    have hi := ((listed_iff U (fun t => t.isIn) fs' (content fs' tmpl') (content fs' tmpl') hok' a.i f' t' x' g1 a.tag g2).2 a ha rfl).2
    refine ⟨f', t', ?_, g2, (hw f' a.tag g2).2.1.1 hi⟩
    have hni : a.i ∉ h'.init := by
      intro hj
      rw [hinit, List.mem_map] at hj
      obtain ⟨b, hb, hbi⟩ := hj
      obtain ⟨k, f'', t'', x'', q1, q2, q3, q4⟩ := collect_mem U _ fs' _ 0 b hb
      have hk : k = a.i := by omega
      rw [hk] at q2
      obtain ⟨rfl, _⟩ := at_inj (v := content fs' tmpl') g1 q2
      rw [g2] at q3
      injection q3 with q3
      rw [← q3] at q4
      have hi : a.tag.isIn = true := hi
      simp [hi] at q4
    exact ((recvInit_ok fs' _ h'.init _ v1 h1).2 a.i hni).trans (at_zero g1)
  have hread : ∀ a ∈ h'.ins, ∃ f t y, At v1 a.i f t (zero X t) ∧ parseTags U f = some a.tag ∧ IsIn f ∧ unmarshalField O' d' a.tag.name f t (zero X t) = .ok y ∧ Carried IsIn client (tagName f) t y := by
    intro a ha
    obtain ⟨f, t, z1, z2, z3⟩ := hzero a ha
    obtain ⟨y, y1, y2⟩ := hcross (tagName f) f t (hex' f (at_info z1)) fun j g u x g1 g2 g3 => hfit j g u x g1 g2 a.i f t (at_zero z1) z3 g3
    rw [← (hw f a.tag z2).1] at y1
    exact ⟨f, t, y, z1, z2, z3, y1, y2⟩
  obtain ⟨v2, h2⟩ := recvIns_succeeds O' fs' d' h'.ins v1 hp fun a ha => by
    obtain ⟨f, t, y, z1, z2, z3, z4, z5⟩ := hread a ha
    exact ⟨f, t, zero X t, y, z1, z4, fun hreq => hr a.i f t (at_zero z1) z3 ((hw f a.tag z2).2.2.2.2.1.1 hreq) y z5⟩
  have hfields : ∀ j f t (y : Val X t), At v2 j f t y → IsIn f → Carried IsIn client (tagName f) t y := by
    intro j f t y hy hi
    obtain ⟨tag, ht⟩ := hok' f (at_info hy)
    have hm := (listed_iff U (fun t => t.isIn) fs' (content fs' tmpl') v2 hok' j f t y hy tag ht).1 ((hw f tag ht).2.1.2 hi)
    rw [← hin'] at hm
    obtain ⟨f', t', x', y', c1, c2, c3⟩ := (clientRecv_ok O' fs' d' h'.ins v1 v2 hp (recvIns_ok O' fs' d' h'.ins v1 v2 hp h2).1).1 _ hm
    obtain ⟨g, u, z, z1, z2, z3, z4, z5⟩ := hread _ hm
    obtain ⟨rfl, rfl⟩ := at_inj (v := v1) (j := j) c1 z1
    obtain ⟨_, rfl⟩ := getField_inj c1 z1
    rw [z4] at c3
    injection c3 with c3
    subst c3
    obtain ⟨rfl, rfl⟩ := at_inj (v := v2) (j := j) c2 hy
    obtain ⟨_, rfl⟩ := getField_inj c2 hy
    exact z5
  have hlast : ∃ obj, (match h'.auth with | none => Res.ok v2 | some a => modField (authField O' none a.tag.required) fs' a.i v2) = .ok obj ∧ ∀ j, getField fs' j obj = getField fs' j v2 := by
    rcases Option.eq_none_or_eq_some h'.auth with ha | ⟨a, ha⟩
    · rw [ha]; exact ⟨v2, rfl, fun _ => rfl⟩
    · rw [ha]
      have hm : a ∈ collect U (fun t _ => t.auth) fs' (content fs' tmpl') 0 := by rw [← hauth, ha]; simp
      obtain ⟨f, t, x, g1, g2⟩ := listed_at U _ fs' _ v2 a hm
      have hat := ((listed_iff U (fun t => t.auth) fs' (content fs' tmpl') v2 hok' a.i f t x g1 a.tag g2).2 a hm rfl).2
      have hnr : a.tag.required = false := by
        cases hr' : a.tag.required with
        | false => rfl
        | true => exact absurd ((hw f a.tag g2).2.2.2.2.1.1 hr') (hau f (at_info g1) ((hw f a.tag g2).2.2.2.1.1 hat))
      show ∃ obj, modField (authField O' none a.tag.required) fs' a.i v2 = _ ∧ _
      rw [hnr]
      have hg : ∀ f t (y : Val X t), authField O' none false f t y = .ok y := fun _ _ _ => rfl
      obtain ⟨obj, hobj⟩ := modField_succeeds (authField O' none false) fs' a.i v2 f t x x g1 (hg f t x)
      refine ⟨obj, hobj, fun j => ?_⟩
      obtain ⟨⟨f', t', x', y', m1, m2, m3⟩, m4⟩ := modField_ok _ fs' a.i v2 obj hobj
      by_cases hj : j = a.i
      · subst hj
        rw [hg] at m2
        injection m2 with m2
        subst m2
        rw [m1, m3]
      · exact m4 j hj
  obtain ⟨obj, ho1, ho2⟩ := hlast
  refine ⟨obj, ?_, fun j f t y hy hi => hfields j f t y ((ho2 j).symm.trans hy) hi⟩
  unfold requestTo
  rw [hsend]
  show (overJson d).bind _ = _
  rw [hover]
  show recv O' h' fs' (content fs' tmpl') { data := d' } = _
  unfold recv
  rw [h1]
  show (recvIns O' fs' d' h'.ins v1).bind _ = _
  rw [h2]
  exact ho1

/-- C183: the response of a server of another release arrives: each output of the client, zero before, is what is seen of the server's output of that name, or still zero if the server has none. -/
theorem C183_response (hX : Laws X) (U : Str → Option Str) (O O' : Order) (fs fs' : Fields) (tmpl : Option (Val X (.struct fs))) (tmpl' : Option (Val X (.struct fs'))) (h h' : AHandler)
    (hh : newHandler U (.ptr (.struct fs) tmpl) = some h) (hh' : newHandler U (.ptr (.struct fs') tmpl') = some h') (hex : ∀ f ∈ fs.infos, f.exported = true) (hex' : ∀ f ∈ fs'.infos, f.exported = true)
    (server : FVals X fs') (client : FVals X fs) (hs : Survive O' IsOut server) (hfit : Fits IsOut server fs)
    (hz : ∀ j f t (x : Val X t), At client j f t x → IsOut f → x = zero X t) :
    ∃ client', responseTo O O' h h' fs fs' server client = .ok client' ∧ ∀ j f t (x : Val X t), At client' j f t x →
      (IsOut f → Carried IsOut server (tagName f) t x) ∧ (¬ IsOut f → At client j f t x) := by
  obtain ⟨hok, _, hout, _⟩ := newHandler_lists U fs tmpl h hh
  obtain ⟨hok', _, hout', _⟩ := newHandler_lists U fs' tmpl' h' hh'
  have hw := fun f tag ht => (C53_words U f).2 tag ht
  obtain ⟨d, d', hsend, hover, hkeys, hcross⟩ := cross2 hX U (fun t => t.isOut) IsOut (fun f tag ht => (hw f tag ht).2.2.1) O' O fs' (content fs' tmpl') server hok' hex' hs
  rw [← hout'] at hsend
  have hp : h.outs.Pairwise fun a b => a.i ≠ b.i := by rw [hout]; exact collect_pairwise U _ fs _ 0
  have hread : ∀ a ∈ h.outs, ∃ f t y, At client a.i f t (zero X t) ∧ parseTags U f = some a.tag ∧ IsOut f ∧ unmarshalField O d' a.tag.name f t (zero X t) = .ok y ∧ Carried IsOut server (tagName f) t y := by
    intro a ha
    rw [hout] at ha
    obtain ⟨f, t, x, g1, g2⟩ := listed_at U _ fs _ client a ha
    have hi := (hw f a.tag g2).2.2.1.1 ((listed_iff U (fun t => t.isOut) fs (content fs tmpl) client hok a.i f t x g1 a.tag g2).2 a ha rfl).2
    have hzx := hz a.i f t x g1 hi
    rw [hzx] at g1
    obtain ⟨y, y1, y2⟩ := hcross (tagName f) f t (hex f (at_info g1)) fun j g u x g3 g4 g5 => hfit j g u x g3 g4 a.i f t (at_zero g1) hi g5
    rw [← (hw f a.tag g2).1] at y1
    exact ⟨f, t, y, g1, g2, hi, y1, y2⟩
  obtain ⟨w, hw'⟩ := clientRecv_succeeds O fs d' h.outs client hp fun a ha => by
    obtain ⟨f, t, y, g1, _, _, g4, _⟩ := hread a ha
    exact ⟨f, t, zero X t, y, g1, g4⟩
  refine ⟨w, ?_, fun j f t x hx => ⟨fun ho => ?_, fun ho => ?_⟩⟩
  · unfold responseTo
    rw [hsend]
    show (overJson d).bind _ = _
    rw [hover]
    exact hw'
  · obtain ⟨tag, ht⟩ := hok f (at_info hx)
    have hm := (listed_iff U (fun t => t.isOut) fs (content fs tmpl) w hok j f t x hx tag ht).1 ((hw f tag ht).2.2.1.2 ho)
    rw [← hout] at hm
    obtain ⟨f', t', x', y', c1, c2, c3⟩ := (clientRecv_ok O fs d' h.outs client w hp hw').1 _ hm
    obtain ⟨g, u, z, z1, z2, z3, z4, z5⟩ := hread _ hm
    obtain ⟨rfl, rfl⟩ := at_inj (v := client) (j := j) c1 z1
    obtain ⟨_, rfl⟩ := getField_inj c1 z1
    rw [z4] at c3
    injection c3 with c3
    subst c3
    obtain ⟨rfl, rfl⟩ := at_inj (v := w) (j := j) c2 hx
    obtain ⟨_, rfl⟩ := getField_inj c2 hx
    exact z5
  · obtain ⟨y, hy⟩ := at_any client hx
    have := C51_client U O fs tmpl h hh d' client w hw' j f t y hy ho
    obtain ⟨_, rfl⟩ := getField_inj this hx
    exact hy

/-- C183: the whole call. -/
theorem C183_call (hX : Laws X) (U : Str → Option Str) (O O' : Order) (fs fs' : Fields) (tmpl : Option (Val X (.struct fs))) (tmpl' : Option (Val X (.struct fs'))) (h h' : AHandler)
    (hh : newHandler U (.ptr (.struct fs) tmpl) = some h) (hh' : newHandler U (.ptr (.struct fs') tmpl') = some h') (hex : ∀ f ∈ fs.infos, f.exported = true) (hex' : ∀ f ∈ fs'.infos, f.exported = true)
    (hau : ∀ f ∈ fs'.infos, IsAuth f → ¬ IsRequired f) (client : FVals X fs) (hs : Survive O IsIn client) (hfit : Fits IsIn client fs')
    (hr : ∀ (j : Nat) (f : FieldInfo) (t : Ty), At (zeroFields X fs') j f t (zero X t) → IsIn f → IsRequired f → ∀ y, Carried IsIn client (tagName f) t y → y ≠ zero X t)
    (hz : ∀ j f t (x : Val X t), At client j f t x → IsOut f → x = zero X t) (exec : FVals X fs' → Res (FVals X fs'))
    (hexec : ∀ s, (∀ j f t (y : Val X t), At s j f t y → IsIn f → Carried IsIn client (tagName f) t y) → ∃ s', exec s = .ok s' ∧ Survive O' IsOut s' ∧ Fits IsOut s' fs) :
    ∃ s s' client', (∀ j f t (y : Val X t), At s j f t y → IsIn f → Carried IsIn client (tagName f) t y) ∧ exec s = .ok s' ∧
      callTo O O' h h' fs fs' (content fs' tmpl') exec client = .ok client' ∧
      ∀ j f t (x : Val X t), At client' j f t x → (IsOut f → Carried IsOut s' (tagName f) t x) ∧ (¬ IsOut f → At client j f t x) := by
  obtain ⟨s, h1, h2⟩ := C183_request hX U O O' fs fs' tmpl tmpl' h h' hh hh' hex hex' hau client hs hfit hr
  obtain ⟨s', h3, h4, h5⟩ := hexec s h2
  obtain ⟨c', h6, h7⟩ := C183_response hX U O O' fs fs' tmpl tmpl' h h' hh hh' hex hex' s' client h4 h5 hz
  refine ⟨s, s', c', h2, h3, ?_, h7⟩
  unfold callTo
  rw [h1]
  show (exec s).bind _ = _
  rw [h3]
  exact h6

/-- C183: a server that requires an input refuses clients that do not have it. -/
theorem C183_refused (U : Str → Option Str) (O O' : Order) (fs fs' : Fields) (tmpl : Option (Val X (.struct fs))) (tmpl' : Option (Val X (.struct fs'))) (h h' : AHandler)
    (hh : newHandler U (.ptr (.struct fs) tmpl) = some h) (hh' : newHandler U (.ptr (.struct fs') tmpl') = some h') (hX : Laws X) (hex : ∀ f ∈ fs.infos, f.exported = true)
    (client : FVals X fs) (hs : Survive O IsIn client) (now : FVals X fs') (j : Nat) (f : FieldInfo) (t : Ty) (hf : At (zeroFields X fs') j f t (zero X t)) (hi : IsIn f) (hreq : IsRequired f) (hna : ¬ IsAuth f)
    (hno : ∀ (j : Nat) (g : FieldInfo) (t : Ty) (x : Val X t), At client j g t x → IsIn g → tagName g ≠ tagName f) (server : FVals X fs') :
    requestTo O O' h h' fs fs' now client ≠ .ok server := by
  intro hc
  obtain ⟨hok, hin, _⟩ := newHandler_lists U fs tmpl h hh
  have hw := fun f tag ht => (C53_words U f).2 tag ht
  obtain ⟨d, d', hsend, hover, hkeys, hcross⟩ := cross2 hX U (fun t => t.isIn) IsIn (fun f tag ht => (hw f tag ht).2.1) O O' fs (content fs tmpl) client hok hex hs
  rw [← hin] at hsend
  unfold requestTo at hc
  rw [hsend] at hc
  have hc : (overJson d).bind (fun d => recv O' h' fs' now { data := d }) = .ok server := hc
  rw [hover] at hc
  obtain ⟨y, hy⟩ := at_any server hf
  obtain ⟨h1, n, h2⟩ := C50_required U O' fs' tmpl' h' hh' now { data := d' } server hc j f t y hy hi hreq hna
  obtain ⟨i, g, u, x, g1, g2, g3⟩ := hkeys _ n h2
  exact hno i g u x g1 g2 g3

/-! ### examples -/
section Examples

/-- `struct { R any "/greet"; Name string "in,required"; Times int8 "in"; Text string "out" }`, and a newer one: `struct { R any "/greet"; Lang string "in"; Times int64 "in"; Name string "in,required"; Text string "out"; Took int8 "out" }` -/
def old : Fields :=
  .cons { name := lit "R", url := lit "/greet" } .any <| .cons { name := lit "Name", api := lit "in,required" } .string <| .cons { name := lit "Times", api := lit "in" } (.int .w8) <|
  .cons { name := lit "Text", api := lit "out" } .string .nil
def new : Fields :=
  .cons { name := lit "R", url := lit "/greet" } .any <| .cons { name := lit "Lang", api := lit "in" } .string <| .cons { name := lit "Times", api := lit "in" } (.int .w64) <|
  .cons { name := lit "Name", api := lit "in,required" } .string <| .cons { name := lit "Text", api := lit "out" } .string <| .cons { name := lit "Took", api := lit "out" } (.int .w8) .nil

/-- Their handlers. -/
def oldH : AHandler := (newHandler (X := XT) anyUrl (.ptr (.struct old) none)).getD {}
def newH : AHandler := (newHandler (X := XT) anyUrl (.ptr (.struct new) none)).getD {}

/-- The newer server greets in the language asked for. -/
def answer : FVals XT new → Res (FVals XT new)
  | (r, lang, times, name, _, _, ()) => .ok (r, lang, times, name, (if (show Str from lang) = [] then lit "Hello " else lit "Hej ") ++ (show Str from name), (3 : BitVec 8), ())

/-- The texts of a result, and its number. -/
def heard : Res (FVals XT old) → Option (Str × Str)
  | .ok (_, name, _, text, ()) => some (name, text)
  | _ => none

/-- An old client is greeted by the new server; the other way round it works too; and a new client that leaves out the name is refused. -/
example : newHandler (X := XT) anyUrl (.ptr (.struct old) none) = some oldH ∧ newHandler (X := XT) anyUrl (.ptr (.struct new) none) = some newH ∧
    heard (callTo (X := XT) sortedOrder sortedOrder oldH newH old new (zeroFields XT new) answer (Any.nil, lit "Bob", (-3 : BitVec 8), lit "", ())) = some (lit "Bob", lit "Hello Bob") ∧
    kind (requestTo (X := XT) sortedOrder sortedOrder newH oldH new old (zeroFields XT old) (Any.nil, lit "sv", (0 : BitVec 64), lit "Bob", lit "", (0 : BitVec 8), ())) = .ok ∧
    kind (requestTo (X := XT) sortedOrder sortedOrder newH oldH new old (zeroFields XT old) (Any.nil, lit "sv", (0 : BitVec 64), lit "", lit "", (0 : BitVec 8), ())) = .err := by decide +kernel

/-- The old client fits the new server. -/
example (v : FVals XT old) : Fits IsIn v new := by
  obtain ⟨r, name, times, text, u⟩ := v
  intro j f t x h hi j' f' t' h' hi' he
  match j, h with
  | 0, h => cases h; exact absurd hi (by unfold IsIn; decide)
  | 1, h =>
    cases h
    match j', h' with
    | 0, h' => cases h'; exact absurd hi' (by unfold IsIn; decide)
    | 1, h' => cases h'; exact absurd he (by decide)
    | 2, h' => cases h'; exact absurd he (by decide)
    | 3, h' => cases h'; exact .same _ rfl
    | 4, h' => cases h'; exact absurd hi' (by unfold IsIn; decide)
    | 5, h' => cases h'; exact absurd hi' (by unfold IsIn; decide)
    | _ + 6, h' => cases h'
  | 2, h =>
    cases h
    match j', h' with
    | 0, h' => cases h'; exact absurd hi' (by unfold IsIn; decide)
    | 1, h' => cases h'; exact absurd he (by decide)
    | 2, h' => cases h'; exact .int .w8 .w64 (by decide)
    | 3, h' => cases h'; exact absurd he (by decide)
    | 4, h' => cases h'; exact absurd hi' (by unfold IsIn; decide)
    | 5, h' => cases h'; exact absurd hi' (by unfold IsIn; decide)
    | _ + 6, h' => cases h'
  | 3, h => cases h; exact absurd hi (by unfold IsIn; decide)
  | _ + 4, h => cases h

end Examples

end Verif.Api.Skew

import Verif.Api.CallLemmas
import Verif.Enc.TypedProps
import Verif.Enc.SafetyProps
/-!
# Properties of calls (C49-C52, C78)
-/
set_option autoImplicit false
namespace Verif.Api
open Verif.Strconv Verif.Enc

variable {X : Ext} [DecidableEq X.F] [DecidableEq X.T]

/-- The same field of another object. -/
theorem at_any {fs : Fields} {v : FVals X fs} (w : FVals X fs) {j : Nat} {f : FieldInfo} {t : Ty} {x : Val X t} (h : At v j f t x) : ∃ y, At w j f t y :=
  getField_any fs v w j f t x h

/-- The description of a field of an object is one of the struct's. -/
theorem at_info : ∀ {fs : Fields} {obj : FVals X fs} {j : Nat} {f : FieldInfo} {t : Ty} {x : Val X t}, At obj j f t x → f ∈ fs.infos
  | .nil, _, _, _, _, _, h => by cases h
  | .cons g u fs, (y, ys), 0, f, t, x, h => by
    simp only [At, getField, Option.some.injEq, Prod.mk.injEq] at h
    rw [← h.1]; exact List.mem_cons_self ..
  | .cons _ _ fs, (_, ys), _ + 1, _, _, _, h => List.mem_cons_of_mem _ (at_info (fs := fs) (obj := ys) h)

/-! ### C49: what the server gets -/

/-- Inputs hold what the request says, or zero; other fields do not depend on the request: outputs and fields with a `url` are zero, the remaining ones are
the template's. -/
theorem C49_inputs (U : Str → Option Str) (O : Order) (fs : Fields) (tmpl : Option (Val X (.struct fs))) (h : AHandler)
    (hh : newHandler U (.ptr (.struct fs) tmpl) = some h) (req : Req X) (obj : FVals X fs) (hr : recv O h fs (content fs tmpl) req = .ok obj)
    (j : Nat) (f : FieldInfo) (t : Ty) (x y : Val X t) (hx : At obj j f t x) (hy : At (content fs tmpl) j f t y) (hna : ¬ IsAuth f) :
    (IsIn f → Decoded O req.data (tagName f) t x) ∧ (¬ IsIn f → (IsOut f ∨ f.url ≠ []) → x = zero X t) ∧ (¬ IsIn f → ¬ IsOut f → f.url = [] → x = y) := by
  obtain ⟨v1, v2, h1, h2, h3⟩ := recv_stages O h fs _ req obj hr
  have hok := (newHandler_lists U fs tmpl h hh).1
  obtain ⟨tag, ht⟩ := hok f (at_info hx)
  obtain ⟨w1, w2, w3, w4, w5, w6⟩ := (C53_words U f).2 tag ht
  have hna : tag.auth = false := by
    cases ha : tag.auth with
    | false => rfl
    | true => exact absurd (w4.1 ha) hna
  have hx2 := auth_other U O fs tmpl h hh req v2 obj h3 j f t x hx tag ht hna
  obtain ⟨s1, s2, s3⟩ := stage_field U O fs tmpl h hh _ req v1 v2 h1 h2 j f t x y y hx2 hy hy tag ht
  rw [w1] at s1
  have neg : ∀ {b : Bool} {p : Prop}, (b = true ↔ p) → ¬ p → b = false := by
    intro b p hb hp
    cases b with
    | false => rfl
    | true => exact absurd (hb.1 rfl) hp
  refine ⟨fun hi => (s1 (w2.2 hi)).1, fun hi ho => s2 (neg w2 hi) ?_, fun hi ho hu => ?_⟩
  · rcases ho with ho | ho
    · exact .inl (w3.2 ho)
    · right
      have hg := (C53_words U f).1.1 ⟨tag, ht⟩
      rw [w6, if_neg ho]
      exact hg.2.resolve_left ho
  · obtain ⟨a, b⟩ := s3 (neg w2 hi) (neg w3 ho) (by rw [w6, if_pos hu]; rfl)
    by_cases hz : y = zero X t
    · rw [b hz, hz]
    · exact a hz

/-- The template is looked at again by every request: changing a set field of it later changes what handlers get, setting one that was zero does not. -/
theorem C49_template (U : Str → Option Str) (O : Order) (fs : Fields) (tmpl : Option (Val X (.struct fs))) (h : AHandler)
    (hh : newHandler U (.ptr (.struct fs) tmpl) = some h) (now : FVals X fs) (req : Req X) (obj : FVals X fs) (hr : recv O h fs now req = .ok obj)
    (j : Nat) (f : FieldInfo) (t : Ty) (x y z : Val X t) (hx : At obj j f t x) (hy : At now j f t y) (hz : At (content fs tmpl) j f t z)
    (hf : ¬ IsAuth f ∧ ¬ IsIn f ∧ ¬ IsOut f ∧ f.url = []) : (z ≠ zero X t → x = y) ∧ (z = zero X t → x = zero X t) := by
  obtain ⟨hna, hi, ho, hu⟩ := hf
  obtain ⟨v1, v2, h1, h2, h3⟩ := recv_stages O h fs _ req obj hr
  have hok := (newHandler_lists U fs tmpl h hh).1
  obtain ⟨tag, ht⟩ := hok f (at_info hx)
  obtain ⟨w1, w2, w3, w4, w5, w6⟩ := (C53_words U f).2 tag ht
  have neg : ∀ {b : Bool} {p : Prop}, (b = true ↔ p) → ¬ p → b = false := by
    intro b p hb hp
    cases b with
    | false => rfl
    | true => exact absurd (hb.1 rfl) hp
  have hx2 := auth_other U O fs tmpl h hh req v2 obj h3 j f t x hx tag ht (neg w4 hna)
  exact (stage_field U O fs tmpl h hh _ req v1 v2 h1 h2 j f t x y z hx2 hy hz tag ht).2.2 (neg w2 hi) (neg w3 ho) (by rw [w6, if_pos hu]; rfl)

/-! ### C50: required inputs and authentication -/

/-- A request is accepted only if every required input is there, and not zero. -/
theorem C50_required (U : Str → Option Str) (O : Order) (fs : Fields) (tmpl : Option (Val X (.struct fs))) (h : AHandler)
    (hh : newHandler U (.ptr (.struct fs) tmpl) = some h) (now : FVals X fs) (req : Req X) (obj : FVals X fs) (hr : recv O h fs now req = .ok obj)
    (j : Nat) (f : FieldInfo) (t : Ty) (x : Val X t) (hx : At obj j f t x) (hi : IsIn f) (hreq : IsRequired f) (hna : ¬ IsAuth f) :
    x ≠ zero X t ∧ ∃ n, lookupKey (tagName f) req.data = some n := by
  obtain ⟨v1, v2, h1, h2, h3⟩ := recv_stages O h fs _ req obj hr
  have hok := (newHandler_lists U fs tmpl h hh).1
  obtain ⟨tag, ht⟩ := hok f (at_info hx)
  obtain ⟨w1, w2, w3, w4, w5, w6⟩ := (C53_words U f).2 tag ht
  have hna : tag.auth = false := by
    cases ha : tag.auth with
    | false => rfl
    | true => exact absurd (w4.1 ha) hna
  have hx2 := auth_other U O fs tmpl h hh req v2 obj h3 j f t x hx tag ht hna
  obtain ⟨y, hy⟩ := at_any now hx
  obtain ⟨z, hz⟩ := at_any (content fs tmpl) hx
  obtain ⟨s1, s2⟩ := (stage_field U O fs tmpl h hh _ req v1 v2 h1 h2 j f t x y z hx2 hy hz tag ht).1 (w2.2 hi)
  have hne := s2 (w5.2 hreq)
  refine ⟨hne, ?_⟩
  rw [w1] at s1
  unfold Decoded at s1
  cases hl : lookupKey (tagName f) req.data with
  | some n => exact ⟨n, rfl⟩
  | none => rw [hl] at s1; exact absurd s1 hne

/-- If authentication is required, an accepted request carries an identity. -/
theorem C50_auth_required (U : Str → Option Str) (O : Order) (fs : Fields) (tmpl : Option (Val X (.struct fs))) (h : AHandler)
    (hh : newHandler U (.ptr (.struct fs) tmpl) = some h) (now : FVals X fs) (req : Req X) (obj : FVals X fs) (hr : recv O h fs now req = .ok obj)
    (f : FieldInfo) (hf : f ∈ fs.infos) (ha : IsAuth f) (hreq : IsRequired f) : ∃ n, req.uid = some n ∧ n ≠ .nil := by
  obtain ⟨v1, v2, h1, h2, h3⟩ := recv_stages O h fs _ req obj hr
  have hok := (newHandler_lists U fs tmpl h hh).1
  obtain ⟨tag, ht⟩ := hok f hf
  obtain ⟨w1, w2, w3, w4, w5, w6⟩ := (C53_words U f).2 tag ht
  have hidx : ∀ (fs : Fields) (obj : FVals X fs), f ∈ fs.infos → ∃ j t x, getField fs j obj = some (f, ⟨t, x⟩) := by
    intro fs
    induction fs using Fields.rec (motive_1 := fun _ => True) with
    | nil => intro obj h; cases h
    | cons g u fs _ ih =>
      rintro ⟨y, ys⟩ h
      rcases List.mem_cons.1 h with rfl | h
      · exact ⟨0, u, y, rfl⟩
      · obtain ⟨j, t, x, hx⟩ := ih ys h
        exact ⟨j + 1, t, x, hx⟩
    | _ => trivial
  obtain ⟨j, t, x, hx⟩ := hidx fs obj hf
  obtain ⟨w, _, hw⟩ := auth_this U O fs tmpl h hh req v2 obj h3 j f t x hx tag ht (w4.2 ha)
  unfold authField at hw
  rw [w5.2 hreq] at hw
  split at hw
  · cases hw
  · cases hw
  · rename_i n hn he
    exact ⟨n, by assumption, fun h => by simp_all⟩

/-- The field for the identity holds what the identity is unmarshalled to, starting from the template's value (or zero). It is not affected by the body. -/
theorem C50_identity_partial (U : Str → Option Str) (O : Order) (fs : Fields) (tmpl : Option (Val X (.struct fs))) (h : AHandler)
    (hh : newHandler U (.ptr (.struct fs) tmpl) = some h) (req : Req X) (obj : FVals X fs) (hr : recv O h fs (content fs tmpl) req = .ok obj)
    (j : Nat) (f : FieldInfo) (t : Ty) (x y : Val X t) (hx : At obj j f t x) (hy : At (content fs tmpl) j f t y) (ha : IsAuth f) (hi : ¬ IsIn f)
    (n : Node X) (hn : req.uid = some n) (hnil : n ≠ .nil) :
    ∃ w, (w = y ∨ w = zero X t) ∧ (unmarshal (encH X) O t n w).st = .ok ∧ x = (unmarshal (encH X) O t n w).val := by
  obtain ⟨v1, v2, h1, h2, h3⟩ := recv_stages O h fs _ req obj hr
  have hok := (newHandler_lists U fs tmpl h hh).1
  obtain ⟨tag, ht⟩ := hok f (at_info hx)
  obtain ⟨w1, w2, w3, w4, w5, w6⟩ := (C53_words U f).2 tag ht
  obtain ⟨w, hw, hau⟩ := auth_this U O fs tmpl h hh req v2 obj h3 j f t x hx tag ht (w4.2 ha)
  have hi : tag.isIn = false := by
    cases ha : tag.isIn with
    | false => rfl
    | true => exact absurd (w2.1 ha) hi
  obtain ⟨_, s2, s3⟩ := stage_field U O fs tmpl h hh _ req v1 v2 h1 h2 j f t w y y hw hy hy tag ht
  refine ⟨w, ?_, ?_⟩
  · by_cases ho : tag.isOut = true ∨ tag.url.isSome = true
    · exact .inr (s2 hi ho)
    · rw [not_or] at ho
      obtain ⟨a, b⟩ := s3 hi (by simpa using ho.1) (by simpa using ho.2)
      by_cases hz : y = zero X t
      · exact .inr (b hz)
      · exact .inl (a hz)
  · unfold authField at hau
    rw [hn] at hau
    split at hau
    · cases ‹some n = none›
    · rename_i heq; injection heq with heq; exact absurd heq hnil
    · rename_i m hm heq
      injection heq with heq
      subst heq
      split at hau
      · unfold outRes at hau
        split at hau
        · rename_i hs; injection hau with hau; exact ⟨hs, hau.symm⟩
        · cases hau
        · cases hau
      · cases hau

/-- Two requests with the same identity, and bodies as different as can be, give the same identity field. -/
theorem C50_body_irrelevant_partial (U : Str → Option Str) (O : Order) (fs : Fields) (tmpl : Option (Val X (.struct fs))) (h : AHandler)
    (hh : newHandler U (.ptr (.struct fs) tmpl) = some h) (now : FVals X fs) (req req' : Req X) (hu : req.uid = req'.uid) (obj obj' : FVals X fs)
    (hr : recv O h fs now req = .ok obj) (hr' : recv O h fs now req' = .ok obj')
    (j : Nat) (f : FieldInfo) (t : Ty) (x x' : Val X t) (hx : At obj j f t x) (hx' : At obj' j f t x') (ha : IsAuth f) (hi : ¬ IsIn f) : x = x' := by
  obtain ⟨v1, v2, h1, h2, h3⟩ := recv_stages O h fs _ req obj hr
  obtain ⟨v1', v2', h1', h2', h3'⟩ := recv_stages O h fs _ req' obj' hr'
  have hok := (newHandler_lists U fs tmpl h hh).1
  obtain ⟨tag, ht⟩ := hok f (at_info hx)
  obtain ⟨w1, w2, w3, w4, w5, w6⟩ := (C53_words U f).2 tag ht
  obtain ⟨w, hw, hau⟩ := auth_this U O fs tmpl h hh req v2 obj h3 j f t x hx tag ht (w4.2 ha)
  obtain ⟨w', hw', hau'⟩ := auth_this U O fs tmpl h hh req' v2' obj' h3' j f t x' hx' tag ht (w4.2 ha)
  have hi : tag.isIn = false := by
    cases ha : tag.isIn with
    | false => rfl
    | true => exact absurd (w2.1 ha) hi
  obtain ⟨y, hy⟩ := at_any now hx
  obtain ⟨z, hz⟩ := at_any (content fs tmpl) hx
  obtain ⟨_, s2, s3⟩ := stage_field U O fs tmpl h hh _ req v1 v2 h1 h2 j f t w y z hw hy hz tag ht
  obtain ⟨_, s2', s3'⟩ := stage_field U O fs tmpl h hh _ req' v1' v2' h1' h2' j f t w' y z hw' hy hz tag ht
  have hww : w = w' := by
    by_cases ho : tag.isOut = true ∨ tag.url.isSome = true
    · rw [s2 hi ho, s2' hi ho]
    · rw [not_or] at ho
      obtain ⟨a, b⟩ := s3 hi (by simpa using ho.1) (by simpa using ho.2)
      obtain ⟨a', b'⟩ := s3' hi (by simpa using ho.1) (by simpa using ho.2)
      by_cases hz : z = zero X t
      · rw [b hz, b' hz]
      · rw [a hz, a' hz]
  subst hww
  rw [hu, hau'] at hau
  injection hau with hau
  exact hau.symm

/-! ### C51: what is sent -/

/-- `Send` writes one entry per name of a listed field, with the value of the last field of that name, and nothing else. -/
theorem C51_sent (U : Str → Option Str) (O : Order) (fs : Fields) (tmpl : Option (Val X (.struct fs))) (h : AHandler)
    (hh : newHandler U (.ptr (.struct fs) tmpl) = some h) (obj : FVals X fs) (d : List (Str × Node X)) :
    (send O fs obj h.outs [] = .ok d → ∀ k,
      ((∃ n, lookupKey k d = some n) ↔ ∃ j f t x, At obj j f t x ∧ IsOut f ∧ tagName f = k) ∧
      ∀ n, lookupKey k d = some n → ∃ j f t x, At obj j f t x ∧ IsOut f ∧ tagName f = k ∧ marshal O t x = .ok n) ∧
    (send O fs obj h.ins [] = .ok d → ∀ k,
      ((∃ n, lookupKey k d = some n) ↔ ∃ j f t x, At obj j f t x ∧ IsIn f ∧ tagName f = k) ∧
      ∀ n, lookupKey k d = some n → ∃ j f t x, At obj j f t x ∧ IsIn f ∧ tagName f = k ∧ marshal O t x = .ok n) := by
  obtain ⟨hok, hin, hout, _⟩ := newHandler_lists U fs tmpl h hh
  have key : ∀ (p : ATag → Bool) (P : FieldInfo → Prop), (∀ f tag, parseTags U f = some tag → (p tag = true ↔ P f)) →
      send O fs obj (collect U (fun t _ => p t) fs (content fs tmpl) 0) [] = .ok d → ∀ k,
      ((∃ n, lookupKey k d = some n) ↔ ∃ j f t x, At obj j f t x ∧ P f ∧ tagName f = k) ∧
      ∀ n, lookupKey k d = some n → ∃ j f t x, At obj j f t x ∧ P f ∧ tagName f = k ∧ marshal O t x = .ok n := by
    intro p P hP hs k
    obtain ⟨_, k2, k3⟩ := send_keys O fs obj _ [] d hs
    have hval : ∀ n, lookupKey k d = some n → ∃ j f t x, At obj j f t x ∧ P f ∧ tagName f = k ∧ marshal O t x = .ok n := by
      intro n hn
      rcases k3 k n hn with ⟨h, _⟩ | ⟨l1, a, l2, f, t, x, e, h1, _, h3, _, h5⟩
      · simp [lookupKey] at h
      · have ha : a ∈ collect U (fun t _ => p t) fs (content fs tmpl) 0 := by rw [e]; simp
        obtain ⟨f', t', x', g1, g2⟩ := listed_at U _ fs _ obj a ha
        obtain ⟨rfl, rfl⟩ := at_inj g1 h3
        have hp := ((listed_iff U p fs (content fs tmpl) obj hok a.i f' t' x' g1 a.tag g2).2 a ha rfl).2
        exact ⟨a.i, f', t', x, h3, (hP _ _ g2).1 hp, ((C53_words U f').2 _ g2).1.symm.trans h1, h5⟩
    refine ⟨⟨fun ⟨n, hn⟩ => ?_, fun ⟨j, f, t, x, h1, h2, h3⟩ => ?_⟩, hval⟩
    · obtain ⟨j, f, t, x, h1, h2, h3, _⟩ := hval n hn
      exact ⟨j, f, t, x, h1, h2, h3⟩
    · obtain ⟨tag, ht⟩ := hok f (at_info h1)
      have hm := (listed_iff U p fs (content fs tmpl) obj hok j f t x h1 tag ht).1 ((hP f tag ht).2 h2)
      cases hl : lookupKey k d with
      | some n => exact ⟨n, rfl⟩
      | none => exact absurd (((C53_words U f).2 tag ht).1.trans h3) (((k2 k).1 hl).2 _ hm)
  constructor
  · rw [hout]; exact key (fun t => t.isOut) IsOut fun f tag ht => ((C53_words U f).2 tag ht).2.2.1
  · rw [hin]; exact key (fun t => t.isIn) IsIn fun f tag ht => ((C53_words U f).2 tag ht).2.1

/-- What is sent depends on the declared fields only: two objects that agree on them send the same. -/
theorem C51_no_leak (U : Str → Option Str) (O : Order) (fs : Fields) (tmpl : Option (Val X (.struct fs))) (h : AHandler)
    (hh : newHandler U (.ptr (.struct fs) tmpl) = some h) (obj obj' : FVals X fs) :
    ((∀ j f t x, At obj j f t x → IsOut f → At obj' j f t x) → send O fs obj h.outs [] = send O fs obj' h.outs []) ∧
    ((∀ j f t x, At obj j f t x → IsIn f → At obj' j f t x) → send O fs obj h.ins [] = send O fs obj' h.ins []) := by
  obtain ⟨hok, hin, hout, _⟩ := newHandler_lists U fs tmpl h hh
  have key : ∀ (p : ATag → Bool) (P : FieldInfo → Prop), (∀ f tag, parseTags U f = some tag → (p tag = true ↔ P f)) →
      (∀ j f t x, At obj j f t x → P f → At obj' j f t x) →
      send O fs obj (collect U (fun t _ => p t) fs (content fs tmpl) 0) [] = send O fs obj' (collect U (fun t _ => p t) fs (content fs tmpl) 0) [] := by
    intro p P hP ho
    refine send_congr O fs obj obj' _ [] fun a ha => ?_
    obtain ⟨f, t, x, g1, g2⟩ := listed_at U _ fs _ obj a ha
    have hp := ((listed_iff U p fs (content fs tmpl) obj hok a.i f t x g1 a.tag g2).2 a ha rfl).2
    have h1 : getField fs a.i obj = _ := g1
    have h2 : getField fs a.i obj' = _ := ho a.i f t x g1 ((hP _ _ g2).1 hp)
    rw [h1, h2]
  constructor
  · rw [hout]; exact key (fun t => t.isOut) IsOut fun f tag ht => ((C53_words U f).2 tag ht).2.2.1
  · rw [hin]; exact key (fun t => t.isIn) IsIn fun f tag ht => ((C53_words U f).2 tag ht).2.1

/-- `Client.Recv` changes outputs only. -/
theorem C51_client (U : Str → Option Str) (O : Order) (fs : Fields) (tmpl : Option (Val X (.struct fs))) (h : AHandler)
    (hh : newHandler U (.ptr (.struct fs) tmpl) = some h) (d : List (Str × Node X)) (obj obj' : FVals X fs) (hr : clientRecv O fs d h.outs obj = .ok obj')
    (j : Nat) (f : FieldInfo) (t : Ty) (x : Val X t) (hx : At obj j f t x) (ho : ¬ IsOut f) : At obj' j f t x := by
  obtain ⟨hok, _, hout, _⟩ := newHandler_lists U fs tmpl h hh
  have hp : h.outs.Pairwise fun a b => a.i ≠ b.i := by rw [hout]; exact collect_pairwise U _ fs _ 0
  obtain ⟨tag, ht⟩ := hok f (at_info hx)
  refine ((clientRecv_ok O fs d h.outs obj obj' hp hr).2 j fun a ha hai => ?_).trans hx
  rw [hout] at ha
  have := ((listed_iff U (fun t => t.isOut) fs (content fs tmpl) obj hok j f t x hx tag ht).2 a ha hai).2
  exact ho (((C53_words U f).2 tag ht).2.2.1.1 this)

/-! ### C52: a whole call -/

/-- The request arrives: the server's inputs are the client's. -/
theorem C52_request (hX : Laws X) (U : Str → Option Str) (O O' : Order) (fs : Fields) (tmpl : Option (Val X (.struct fs))) (h : AHandler)
    (hh : newHandler U (.ptr (.struct fs) tmpl) = some h) (hex : ∀ f ∈ fs.infos, f.exported = true) (hau : ∀ f ∈ fs.infos, IsAuth f → ¬ IsRequired f)
    (client : FVals X fs) (hd : DistinctNames IsIn client) (hs : Survive O IsIn client)
    (hr : ∀ j f t (x : Val X t), At client j f t x → IsIn f → IsRequired f → x ≠ zero X t) :
    ∃ server, request O O' h fs (content fs tmpl) client = .ok server ∧ ∀ j f t (x : Val X t), At client j f t x → IsIn f → At server j f t x := by
  obtain ⟨hok, hin, _, hinit, hauth⟩ := newHandler_lists U fs tmpl h hh
  have hw := fun f tag ht => (C53_words U f).2 tag ht
  obtain ⟨d, d', hsend, hover, hcross⟩ := cross hX U (fun t => t.isIn) O O' fs (content fs tmpl) client hok hex
    (fun i j f g t u x y tag tag' h1 h2 h3 h4 h5 h6 h7 => hd i j f g t u x y h1 h2 ((hw f tag h3).2.1.1 h5) ((hw g tag' h4).2.1.1 h6)
      ((hw f tag h3).1.symm.trans (h7.trans (hw g tag' h4).1)))
    (fun j f t x tag h1 h2 h3 => hs j f t x h1 ((hw f tag h2).2.1.1 h3))
  rw [← hin] at hsend
  have hp : h.ins.Pairwise fun a b => a.i ≠ b.i := by rw [hin]; exact collect_pairwise U _ fs _ 0
  obtain ⟨v1, h1⟩ := recvInit_succeeds fs (content fs tmpl) h.init (zeroFields X fs) fun j hj => by
    rw [hinit, List.mem_map] at hj
    obtain ⟨a, ha, rfl⟩ := hj
    obtain ⟨f, t, x, g1, _⟩ := listed_at U _ fs _ (content fs tmpl) a ha
    exact ⟨f, t, x, g1, hex f (at_info g1)⟩
  have hzero : ∀ a ∈ h.ins, ∀ f t (x : Val X t), At client a.i f t x → At v1 a.i f t (zero X t) ∧ parseTags U f = some a.tag ∧ a.tag.isIn = true := by
    intro a ha f t x hx
    rw [hin] at ha
    obtain ⟨f', t', x', g1, g2⟩ := listed_at U _ fs _ client a ha
    obtain ⟨rfl, rfl⟩ := at_inj g1 hx
    have hi := ((listed_iff U (fun t => t.isIn) fs (content fs tmpl) client hok a.i f' t' x' g1 a.tag g2).2 a ha rfl).2
    refine ⟨?_, g2, hi⟩
    have hni : a.i ∉ h.init := by
      intro hj
      rw [hinit, List.mem_map] at hj
      obtain ⟨b, hb, hbi⟩ := hj
      obtain ⟨k, f'', t'', x'', q1, q2, q3, q4⟩ := collect_mem U _ fs _ 0 b hb
      have hk : k = a.i := by omega
      rw [hk] at q2
      obtain ⟨y, hy⟩ := at_any client (v := content fs tmpl) q2
      obtain ⟨rfl, _⟩ := at_inj g1 hy
      rw [g2] at q3
      injection q3 with q3
      rw [← q3] at q4
      have hi : a.tag.isIn = true := hi
      simp [hi] at q4
    exact ((recvInit_ok fs _ h.init _ v1 h1).2 a.i hni).trans (getField_zero fs client a.i f' t' x' g1)
  obtain ⟨v2, h2⟩ := recvIns_succeeds O' fs d' h.ins v1 hp fun a ha => by
    have ha' := ha
    rw [hin] at ha'
    obtain ⟨f, t, x, g1, _⟩ := listed_at U _ fs _ client a ha'
    obtain ⟨z1, z2, z3⟩ := hzero a ha f t x g1
    exact ⟨f, t, zero X t, x, z1, hcross a.i f t x a.tag g1 z2 z3,
      fun hreq => hr a.i f t x g1 ((hw f a.tag z2).2.1.1 z3) ((hw f a.tag z2).2.2.2.2.1.1 hreq)⟩
  have hfields : ∀ j f t (x : Val X t), At client j f t x → IsIn f → At v2 j f t x := by
    intro j f t x hx hi
    obtain ⟨tag, ht⟩ := hok f (at_info hx)
    have hti := (hw f tag ht).2.1.2 hi
    have hm := (listed_iff U (fun t => t.isIn) fs (content fs tmpl) client hok j f t x hx tag ht).1 hti
    rw [← hin] at hm
    obtain ⟨z1, _⟩ := hzero _ hm f t x hx
    obtain ⟨f', t', x', y', c1, c2, c3⟩ := (clientRecv_ok O' fs d' h.ins v1 v2 hp (recvIns_ok O' fs d' h.ins v1 v2 hp h2).1).1 _ hm
    obtain ⟨rfl, rfl⟩ := at_inj (v := v1) (j := j) c1 z1
    obtain ⟨_, rfl⟩ := getField_inj c1 z1
    have := hcross j f' t' x tag hx ht hti
    rw [this] at c3
    injection c3 with c3
    subst c3
    exact c2
  -- nobody is authenticated
  have hlast : ∃ obj, (match h.auth with | none => Res.ok v2 | some a => modField (authField O' none a.tag.required) fs a.i v2) = .ok obj ∧
      ∀ j, getField fs j obj = getField fs j v2 := by
    rcases Option.eq_none_or_eq_some h.auth with ha | ⟨a, ha⟩
    · rw [ha]; exact ⟨v2, rfl, fun _ => rfl⟩
    · rw [ha]
      have hm : a ∈ collect U (fun t _ => t.auth) fs (content fs tmpl) 0 := by rw [← hauth, ha]; simp
      obtain ⟨f, t, x, g1, g2⟩ := listed_at U _ fs _ v2 a hm
      have hat := ((listed_iff U (fun t => t.auth) fs (content fs tmpl) v2 hok a.i f t x g1 a.tag g2).2 a hm rfl).2
      have hnr : a.tag.required = false := by
        cases hr' : a.tag.required with
        | false => rfl
        | true => exact absurd ((hw f a.tag g2).2.2.2.2.1.1 hr') (hau f (at_info g1) ((hw f a.tag g2).2.2.2.1.1 hat))
      show ∃ obj, modField (authField O' none a.tag.required) fs a.i v2 = _ ∧ _
      rw [hnr]
      have hg : ∀ f t (y : Val X t), authField O' none false f t y = .ok y := fun _ _ _ => rfl
      obtain ⟨obj, hobj⟩ := modField_succeeds (authField O' none false) fs a.i v2 f t x x g1 (hg f t x)
      refine ⟨obj, hobj, fun j => ?_⟩
      obtain ⟨⟨f', t', x', y', m1, m2, m3⟩, m4⟩ := modField_ok _ fs a.i v2 obj hobj
      by_cases hj : j = a.i
      · subst hj
        rw [hg] at m2
        injection m2 with m2
        subst m2
        rw [m1, m3]
      · exact m4 j hj
  obtain ⟨obj, ho1, ho2⟩ := hlast
  refine ⟨obj, ?_, fun j f t x hx hi => (ho2 j).trans (hfields j f t x hx hi)⟩
  unfold request
  rw [hsend]
  show (overJson d).bind _ = _
  rw [hover]
  show recv O' h fs (content fs tmpl) { data := d' } = _
  unfold recv
  rw [h1]
  show (recvIns O' fs d' h.ins v1).bind _ = _
  rw [h2]
  exact ho1

/-- The response arrives: the client's outputs, zero before, are the server's, and its other fields are untouched. -/
theorem C52_response (hX : Laws X) (U : Str → Option Str) (O O' : Order) (fs : Fields) (tmpl : Option (Val X (.struct fs))) (h : AHandler)
    (hh : newHandler U (.ptr (.struct fs) tmpl) = some h) (hex : ∀ f ∈ fs.infos, f.exported = true)
    (server client : FVals X fs) (hd : DistinctNames IsOut server) (hs : Survive O' IsOut server)
    (hz : ∀ j f t (x : Val X t), At client j f t x → IsOut f → x = zero X t) :
    ∃ client', response O O' h fs server client = .ok client' ∧ ∀ j f t (x y : Val X t), At server j f t x → At client j f t y →
      (IsOut f → At client' j f t x) ∧ (¬ IsOut f → At client' j f t y) := by
  obtain ⟨hok, _, hout, _⟩ := newHandler_lists U fs tmpl h hh
  have hw := fun f tag ht => (C53_words U f).2 tag ht
  obtain ⟨d, d', hsend, hover, hcross⟩ := cross hX U (fun t => t.isOut) O' O fs (content fs tmpl) server hok hex
    (fun i j f g t u x y tag tag' h1 h2 h3 h4 h5 h6 h7 => hd i j f g t u x y h1 h2 ((hw f tag h3).2.2.1.1 h5) ((hw g tag' h4).2.2.1.1 h6)
      ((hw f tag h3).1.symm.trans (h7.trans (hw g tag' h4).1)))
    (fun j f t x tag h1 h2 h3 => hs j f t x h1 ((hw f tag h2).2.2.1.1 h3))
  rw [← hout] at hsend
  have hp : h.outs.Pairwise fun a b => a.i ≠ b.i := by rw [hout]; exact collect_pairwise U _ fs _ 0
  have hlist : ∀ a ∈ h.outs, ∃ f t x, At server a.i f t x ∧ At client a.i f t (zero X t) ∧ parseTags U f = some a.tag ∧ a.tag.isOut = true := by
    intro a ha
    rw [hout] at ha
    obtain ⟨f, t, x, g1, g2⟩ := listed_at U _ fs _ server a ha
    have hi := ((listed_iff U (fun t => t.isOut) fs (content fs tmpl) server hok a.i f t x g1 a.tag g2).2 a ha rfl).2
    obtain ⟨y, hy⟩ := at_any client g1
    have := hz a.i f t y hy ((hw f a.tag g2).2.2.1.1 hi)
    rw [this] at hy
    exact ⟨f, t, x, g1, hy, g2, hi⟩
  obtain ⟨w, hw'⟩ := clientRecv_succeeds O fs d' h.outs client hp fun a ha => by
    obtain ⟨f, t, x, g1, g2, g3, g4⟩ := hlist a ha
    exact ⟨f, t, zero X t, x, g2, hcross a.i f t x a.tag g1 g3 g4⟩
  refine ⟨w, ?_, fun j f t x y hx hy => ⟨fun ho => ?_, fun ho => C51_client U O fs tmpl h hh d' client w hw' j f t y hy ho⟩⟩
  · unfold response
    rw [hsend]
    show (overJson d).bind _ = _
    rw [hover]
    exact hw'
  · obtain ⟨tag, ht⟩ := hok f (at_info hx)
    have hto := (hw f tag ht).2.2.1.2 ho
    have hm := (listed_iff U (fun t => t.isOut) fs (content fs tmpl) server hok j f t x hx tag ht).1 hto
    rw [← hout] at hm
    obtain ⟨f', t', x', y', c1, c2, c3⟩ := (clientRecv_ok O fs d' h.outs client w hp hw').1 _ hm
    obtain ⟨rfl, rfl⟩ := at_inj (v := client) (j := j) c1 hy
    obtain ⟨_, rfl⟩ := getField_inj c1 hy
    have := hz j f' t' x' hy ho
    subst this
    rw [hcross j f' t' x tag hx ht hto] at c3
    injection c3 with c3
    subst c3
    exact c2

/-- A whole call: the server computes from the client's inputs, and the client ends up with the outputs the server computed. -/
theorem C52_call_partial (hX : Laws X) (U : Str → Option Str) (O O' : Order) (fs : Fields) (tmpl : Option (Val X (.struct fs))) (h : AHandler)
    (hh : newHandler U (.ptr (.struct fs) tmpl) = some h) (hex : ∀ f ∈ fs.infos, f.exported = true) (hau : ∀ f ∈ fs.infos, IsAuth f → ¬ IsRequired f)
    (client : FVals X fs) (hd : DistinctNames IsIn client) (hs : Survive O IsIn client)
    (hr : ∀ j f t (x : Val X t), At client j f t x → IsIn f → IsRequired f → x ≠ zero X t)
    (hz : ∀ j f t (x : Val X t), At client j f t x → IsOut f → x = zero X t)
    (exec : FVals X fs → Res (FVals X fs))
    (hexec : ∀ s, (∀ j f t (x : Val X t), At client j f t x → IsIn f → At s j f t x) → ∃ s', exec s = .ok s' ∧ DistinctNames IsOut s' ∧ Survive O' IsOut s') :
    ∃ s s' client', (∀ j f t (x : Val X t), At client j f t x → IsIn f → At s j f t x) ∧ exec s = .ok s' ∧
      call O O' h fs (content fs tmpl) exec client = .ok client' ∧
      ∀ j f t (x y : Val X t), At s' j f t x → At client j f t y → (IsOut f → At client' j f t x) ∧ (¬ IsOut f → At client' j f t y) := by
  obtain ⟨s, h1, h2⟩ := C52_request hX U O O' fs tmpl h hh hex hau client hd hs hr
  obtain ⟨s', h3, h4, h5⟩ := hexec s h2
  obtain ⟨c', h6, h7⟩ := C52_response hX U O O' fs tmpl h hh hex s' client h4 h5 hz
  refine ⟨s, s', c', h2, h3, ?_, h7⟩
  unfold call
  rw [h1]
  show (exec s).bind _ = _
  rw [h3]
  exact h6

/-! ### C78: panics -/

theorem copyField_not_err : ∀ (fs : Fields) (i : Nat) (s d : FVals X fs), copyField fs i s d ≠ .err
  | .nil, _, _, _ => by intro h; cases h
  | .cons f _ _, 0, (_, _), (_, _) => by simp only [copyField]; split <;> intro h <;> cases h
  | .cons _ _ fs, i + 1, (_, ss), (d, ds) => by
    have := copyField_not_err fs i ss ds
    simp only [copyField]
    cases hc : copyField fs i ss ds with
    | ok w => intro h; cases h
    | err => exact absurd hc this
    | panic => intro h; cases h

theorem copyField_unexported : ∀ (fs : Fields) (i : Nat) (s d w : FVals X fs) (f : FieldInfo) (t : Ty) (x : Val X t), At s i f t x → f.exported = false →
    copyField fs i s d ≠ .ok w
  | .nil, _, _, _, _, _, _, _, h, _ => by cases h
  | .cons g _ _, 0, (_, _), (_, _), w, f, t, x, h, he => by
    simp only [At, getField, Option.some.injEq, Prod.mk.injEq] at h
    obtain ⟨rfl, _⟩ := h
    simp only [copyField, he]
    intro h; cases h
  | .cons _ _ fs, i + 1, (_, ss), (d, ds), w, f, t, x, h, he => by
    intro hc
    obtain ⟨w', hw, _⟩ := bind_ok hc
    exact copyField_unexported fs i ss ds w' f t x h he hw

theorem recvInit_unexported (fs : Fields) (now : FVals X fs) (j : Nat) (f : FieldInfo) (t : Ty) (x : Val X t) (hx : At now j f t x) (he : f.exported = false) :
    ∀ (l : List Nat) (v : FVals X fs), j ∈ l → recvInit fs now l v = .panic
  | i :: l, v, hj => by
    simp only [recvInit]
    cases hc : copyField fs i now v with
    | err => exact absurd hc (copyField_not_err fs i now v)
    | panic => rfl
    | ok w =>
      rcases List.mem_cons.1 hj with rfl | hj
      · exact absurd hc (copyField_unexported fs j now v w f t x hx he)
      · exact recvInit_unexported fs now j f t x hx he l w hj

/-- C78 is violated: a template with an unexported field that is set (a handle on a database, say) is accepted, and then every request panics. -/
theorem C78_violated (U : Str → Option Str) (O : Order) (fs : Fields) (tmpl : Option (Val X (.struct fs))) (h : AHandler)
    (hh : newHandler U (.ptr (.struct fs) tmpl) = some h) (j : Nat) (f : FieldInfo) (t : Ty) (x : Val X t) (hx : At (content fs tmpl) j f t x)
    (hset : x ≠ zero X t) (he : f.exported = false) (hf : ¬ IsIn f ∧ ¬ IsOut f ∧ f.url = []) (req : Req X) : recv O h fs (content fs tmpl) req = .panic := by
  obtain ⟨hok, _, _, hinit, _⟩ := newHandler_lists U fs tmpl h hh
  obtain ⟨tag, ht⟩ := hok f (at_info hx)
  obtain ⟨w1, w2, w3, w4, w5, w6⟩ := (C53_words U f).2 tag ht
  have neg : ∀ {b : Bool} {p : Prop}, (b = true ↔ p) → ¬ p → b = false := by
    intro b p hb hp
    cases b with
    | false => rfl
    | true => exact absurd (hb.1 rfl) hp
  have hnz : isZero t x = false := by
    cases hz : isZero t x with
    | false => rfl
    | true => exact absurd ((isZero_iff t x).1 hz) hset
  have hu : tag.url = none := by rw [w6, if_pos hf.2.2]
  have hm := collect_of_getField U (fun t z => !t.isIn && !t.isOut && t.url.isNone && !z) fs (content fs tmpl) 0 j f t x tag hok hx ht
    (by simp [neg w2 hf.1, neg w3 hf.2.1, hu, hnz])
  have hj : j ∈ h.init := by rw [hinit, List.mem_map]; exact ⟨_, hm, by simp⟩
  unfold recv
  rw [recvInit_unexported fs _ j f t x hx he h.init _ hj]
  rfl

theorem modField_no_panic (g : FieldInfo → (t : Ty) → Val X t → Res (Val X t)) (fs : Fields) (i : Nat) (v : FVals X fs) (f : FieldInfo) (t : Ty) (x : Val X t)
    (hx : At v i f t x) (hg : g f t x ≠ .panic) : modField g fs i v ≠ .panic := by
  induction fs using Fields.rec (motive_1 := fun _ => True) generalizing i with
  | nil => cases hx
  | cons f' u fs _ ih =>
    obtain ⟨y, ys⟩ := v
    cases i with
    | zero =>
      simp only [At, getField, Option.some.injEq, Prod.mk.injEq] at hx
      obtain ⟨rfl, hx⟩ := hx
      obtain ⟨rfl, hx⟩ := Sigma.mk.inj hx
      have hx := eq_of_heq hx
      subst hx
      simp only [modField]
      cases hr : g f' u y with
      | ok _ => intro h; cases h
      | err => intro h; cases h
      | panic => exact absurd hr hg
    | succ i =>
      have := ih i ys hx
      simp only [modField]
      cases hr : modField g fs i ys with
      | ok _ => intro h; cases h
      | err => intro h; cases h
      | panic => exact absurd hr this
  | _ => trivial

theorem outRes_no_panic {α : Type} (r : Out X α) (h : r.st ≠ .panic) : outRes r ≠ .panic := by
  unfold outRes
  split
  · intro h; cases h
  · intro h; cases h
  · rename_i hs; exact absurd hs h

theorem recvIns_no_panic (O : Order) (fs : Fields) (data : List (Str × Node X)) : ∀ (l : List HField) (v : FVals X fs),
    (∀ a ∈ l, ∀ v : FVals X fs, ∃ f t x, At v a.i f t x ∧ unmarshalField O data a.tag.name f t x ≠ .panic) → recvIns O fs data l v ≠ .panic
  | [], v, _ => by intro h; cases h
  | a :: l, v, h => by
    rw [recvIns_cons]
    obtain ⟨f, t, x, h1, h2⟩ := h a (List.mem_cons_self ..) v
    have hm := modField_no_panic (unmarshalField O data a.tag.name) fs a.i v f t x h1 h2
    cases hc : modField (unmarshalField O data a.tag.name) fs a.i v with
    | panic => exact absurd hc hm
    | err => intro h; cases h
    | ok w =>
      simp only [Res.bind]
      split
      · intro h; cases h
      · exact recvIns_no_panic O fs data l w fun b hb => h b (List.mem_cons_of_mem _ hb)

theorem clean_decoded (s : Str) (n : Node X) (h : decode s = some (some n)) : Clean n := ⟨(decode_decoded s n h).1, (decode_decoded s n h).2.2.1⟩

/-- The type of a field of a safe struct is safe. -/
theorem at_safe : ∀ {fs : Fields} {obj : FVals X fs} {j : Nat} {f : FieldInfo} {t : Ty} {x : Val X t}, At obj j f t x → fs.unmarshalSafe = true → f.exported = true →
    t.unmarshalSafe = true
  | .nil, _, _, _, _, _, h, _, _ => by cases h
  | .cons g u fs, (y, ys), 0, f, t, x, h, hs, he => by
    simp only [At, getField, Option.some.injEq, Prod.mk.injEq] at h
    obtain ⟨rfl, h⟩ := h
    obtain ⟨rfl, _⟩ := Sigma.mk.inj h
    simp only [Fields.unmarshalSafe, Bool.and_eq_true, Bool.or_eq_true, Bool.not_eq_true'] at hs
    rcases hs.1 with h | h
    · rw [he] at h; cases h
    · exact h.2
  | .cons g u fs, (_, ys), j + 1, f, t, x, h, hs, he => by
    simp only [Fields.unmarshalSafe, Bool.and_eq_true] at hs
    exact at_safe (fs := fs) (obj := ys) (j := j) h hs.2 he

/-- C78: with all fields exported, of types that unmarshal safely, no request of decoded JSON panics. -/
theorem C78_partial (U : Str → Option Str) (O : Order) (fs : Fields) (tmpl : Option (Val X (.struct fs))) (h : AHandler)
    (hh : newHandler U (.ptr (.struct fs) tmpl) = some h) (hex : ∀ f ∈ fs.infos, f.exported = true) (hsafe : fs.unmarshalSafe = true)
    (now : FVals X fs) (req : Req X) (body : Str) (hb : readFrom body = some req.data) (hu : ∀ n, req.uid = some n → ∃ s, decode s = some (some n)) :
    recv O h fs now req ≠ .panic := by
  obtain ⟨hok, hin, _, hinit, hauth⟩ := newHandler_lists U fs tmpl h hh
  have hclean : ∀ k n, lookupKey k req.data = some n → Clean n := by
    intro k n hk
    unfold readFrom at hb
    split at hb
    · injection hb with hb; rw [← hb] at hk; cases hk
    · split at hb
      · rename_i m hd
        injection hb with hb
        subst hb
        exact clean_map _ (clean_decoded body _ hd) (k, n) (mem_of_lookup hk)
      · cases hb
  obtain ⟨v1, h1⟩ := recvInit_succeeds fs now h.init (zeroFields X fs) fun j hj => by
    rw [hinit, List.mem_map] at hj
    obtain ⟨a, ha, rfl⟩ := hj
    obtain ⟨f, t, x, g1, _⟩ := listed_at U _ fs _ now a ha
    exact ⟨f, t, x, g1, hex f (at_info g1)⟩
  unfold recv
  rw [h1]
  show (recvIns O fs req.data h.ins v1).bind _ ≠ _
  have h2 := recvIns_no_panic O fs req.data h.ins v1 fun a ha v => by
    rw [hin] at ha
    obtain ⟨f, t, x, g1, _⟩ := listed_at U _ fs _ v a ha
    refine ⟨f, t, x, g1, ?_⟩
    unfold unmarshalField
    split
    · intro h; cases h
    · rename_i n hn
      rw [hex f (at_info g1), if_pos rfl]
      exact outRes_no_panic _ (unmarshal_no_panic (encH X) O t n x (at_safe g1 hsafe (hex f (at_info g1))) (hclean _ n hn))
  cases hc : recvIns O fs req.data h.ins v1 with
  | panic => exact absurd hc h2
  | err => intro h; cases h
  | ok v2 =>
    show (match h.auth with | none => Res.ok v2 | some a => modField (authField O req.uid a.tag.required) fs a.i v2) ≠ .panic
    rcases Option.eq_none_or_eq_some h.auth with ha | ⟨a, ha⟩
    · rw [ha]; intro h; cases h
    · rw [ha]
      have hm : a ∈ collect U (fun t _ => t.auth) fs (content fs tmpl) 0 := by rw [← hauth, ha]; simp
      obtain ⟨f, t, x, g1, g2⟩ := listed_at U _ fs _ v2 a hm
      refine modField_no_panic _ fs a.i v2 f t x g1 ?_
      unfold authField
      split
      · split <;> intro h <;> cases h
      · split <;> intro h <;> cases h
      · rename_i n hn heq
        rw [hex f (at_info g1), if_pos rfl]
        obtain ⟨s, hs⟩ := hu n heq
        exact outRes_no_panic _ (unmarshal_no_panic (encH X) O t n x (at_safe g1 hsafe (hex f (at_info g1))) (clean_decoded s n hs))

/-! ### concrete cases -/
section Examples

/-- Every text is a URL, and its own path. -/
def anyUrl : Str → Option Str := some

/-- `struct { R any "/greet"; Name string "in,required"; Times int "both"; UID string "auth,required"; Text string "out"; Prefix string }` -/
def greetTy : Fields :=
  .cons { name := lit "R", url := lit "/greet" } .any <|
  .cons { name := lit "Name", tag := lit "name", api := lit "in,required" } .string <|
  .cons { name := lit "Times", enc := lit "n,omitempty", tag := lit "times", api := lit "both" } (.int .w8) <|
  .cons { name := lit "UID", api := lit "auth,required" } .string <|
  .cons { name := lit "Text", tag := lit "text", api := lit "out" } .string <|
  .cons { name := lit "Prefix" } .string .nil

/-- The template sets `Prefix` and, to no effect, `Text`. -/
def greetTmpl : FVals XT greetTy := (Any.nil, lit "", (0 : BitVec 8), lit "", lit "old", lit "Hi", ())

/-- Its handler. -/
def greet : AHandler := (newHandler (X := XT) anyUrl (.ptr (.struct greetTy) (some greetTmpl))).getD {}

/-- C53: the handler. -/
example : newHandler (X := XT) anyUrl (.ptr (.struct greetTy) (some greetTmpl)) = some greet ∧
    greet.ins.map (fun a => (a.i, a.tag.name, a.tag.required)) = [(1, lit "name", true), (2, lit "n", false)] ∧
    greet.outs.map (fun a => (a.i, a.tag.name)) = [(2, lit "n"), (4, lit "text")] ∧ greet.init = [5] ∧ greet.urls = [lit "/greet"] ∧
    (greet.auth.map (·.i)) = some 3 := by decide +kernel

/-- C53: an unknown word, two identities, no pointer. -/
example : newHandler (X := XT) anyUrl (.ptr (.struct (.cons { name := lit "A", api := lit "in,optional" } .string .nil)) none) = none ∧
    newHandler (X := XT) anyUrl (.ptr (.struct (.cons { name := lit "A", api := lit "auth" } .string (.cons { name := lit "B", api := lit "auth" } .string .nil))) none) = none ∧
    newHandler (X := XT) anyUrl .other = none := by decide +kernel

/-- The status of a result. -/
def kind {α : Type} : Res α → Status
  | .ok _ => .ok
  | .err => .err
  | .panic => .panic

/-- One field of a result, as text. -/
def textAt {fs : Fields} (j : Nat) (r : Res (FVals XT fs)) : Option Str :=
  match r with
  | .ok v => match getField fs j v with
    | some (_, ⟨.string, s⟩) => some s
    | _ => none
  | _ => none

/-- A request with keys that are none of its business. -/
def greetReq : Req XT := { data := [(lit "Prefix", .str (lit "Evil")), (lit "UID", .str (lit "root")), (lit "name", .str (lit "Bob")), (lit "text", .str (lit "fake"))], uid := some (.str (lit "u1")) }

/-- C49, C50: outputs and hidden fields ignore the request, the identity comes from the request's identity. -/
example : textAt 1 (recv sortedOrder greet greetTy greetTmpl greetReq) = some (lit "Bob") ∧ textAt 3 (recv sortedOrder greet greetTy greetTmpl greetReq) = some (lit "u1") ∧
    textAt 4 (recv sortedOrder greet greetTy greetTmpl greetReq) = some (lit "") ∧ textAt 5 (recv sortedOrder greet greetTy greetTmpl greetReq) = some (lit "Hi") := by
  decide +kernel

/-- C50: no name, or no identity: refused. -/
example : kind (recv sortedOrder greet greetTy greetTmpl { greetReq with data := [] }) = .err ∧ kind (recv sortedOrder greet greetTy greetTmpl { greetReq with uid := none }) = .err ∧
    kind (recv sortedOrder greet greetTy greetTmpl { greetReq with uid := some .nil }) = .err := by decide +kernel

/-- C51: the two sides send different fields. -/
example : send sortedOrder greetTy greetTmpl greet.outs [] = .ok [(lit "n", .int 0), (lit "text", .str (lit "old"))] ∧
    send sortedOrder greetTy greetTmpl greet.ins [] = .ok [(lit "n", .int 0), (lit "name", .str (lit ""))] := by decide +kernel

/-- `struct { Who struct { ID string; Admin bool } "auth,in,required" }` -/
def whoTy : Fields :=
  .cons { name := lit "Who", tag := lit "who", api := lit "auth,in,required" } (.struct (.cons { name := lit "ID" } .string (.cons { name := lit "Admin" } .bool .nil))) .nil

/-- Its handler. -/
def who : AHandler := (newHandler (X := XT) anyUrl (.ptr (.struct whoTy) none)).getD {}

/-- C50 is violated: if the field for the identity is an input too, of a struct type, then what the body says stays where the identity says nothing. -/
theorem C50_violated : newHandler (X := XT) anyUrl (.ptr (.struct whoTy) none) = some who ∧ ∀ now,
    recv (X := XT) sortedOrder who whoTy now { data := [(lit "who", .map [(lit "Admin", .bool true)])], uid := some (.map [(lit "ID", .str (lit "bob"))]) } =
      .ok ((lit "bob", (true : Bool), ()), ()) := by
  refine ⟨by decide +kernel, fun now => ?_⟩
  rfl

/-- And without an identity, if none is required, the identity is the one in the body. -/
theorem C50_spoofed_violated : ∃ h, newHandler (X := XT) anyUrl (.ptr (.struct (.cons { name := lit "UID", api := lit "auth,in" } .string .nil)) none) = some h ∧ ∀ now,
    recv (X := XT) sortedOrder h (.cons { name := lit "UID", api := lit "auth,in" } .string .nil) now { data := [(lit "UID", .str (lit "root"))] } = .ok (lit "root", ()) := by
  refine ⟨_, rfl, fun now => rfl⟩

/-- `struct { Page struct { Next string "omitempty" } "out" }` -/
def pageTy : Fields := .cons { name := lit "Page", api := lit "out" } (.struct (.cons { name := lit "Next", tag := lit ",omitempty" } .string .nil)) .nil

/-- Its handler. -/
def page : AHandler := (newHandler (X := XT) anyUrl (.ptr (.struct pageTy) none)).getD {}

/-- The text in a page. -/
def pageText : Res (FVals XT pageTy) → Option Str
  | .ok ((s, _), _) => some s
  | _ => none

/-- C52 is violated if the client's outputs are not zero before: using an object for a second call keeps parts of the first response. -/
theorem C52_violated : newHandler (X := XT) anyUrl (.ptr (.struct pageTy) none) = some page ∧
    pageText (call (X := XT) sortedOrder sortedOrder page pageTy (zeroFields XT pageTy) (fun _ => .ok ((lit "", ()), ())) ((lit "2", ()), ())) = some (lit "2") := by
  decide +kernel

/-- C52: the call above, with a fresh object. -/
example : pageText (call (X := XT) sortedOrder sortedOrder page pageTy (zeroFields XT pageTy) (fun _ => .ok ((lit "3", ()), ())) ((lit "", ()), ())) = some (lit "3") := by
  decide +kernel

/-- C78: a private field that is set. -/
example : kind (recv (X := XT) sortedOrder ((newHandler (X := XT) anyUrl (.ptr (.struct (.cons { name := lit "db", exported := false } .string .nil)) (some (lit "x", ())))).getD {})
    (.cons { name := lit "db", exported := false } .string .nil) (lit "x", ()) { data := [] }) = .panic := by decide +kernel

end Examples
end Verif.Api

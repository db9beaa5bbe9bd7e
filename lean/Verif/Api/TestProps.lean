import Verif.Api.TestCall
import Verif.Api.CallProps
/-!
# What a test of an API shows (C119)
-/
set_option autoImplicit false
namespace Verif.Api
open Verif.Strconv Verif.Enc

variable {X : Ext} [DecidableEq X.F] [DecidableEq X.T]

/-- Fields listed under distinct names cross as nodes. -/
theorem cross_nodes (hX : Laws X) (U : Str → Option Str) (p : ATag → Bool) (O O' : Order) (fs : Fields) (v obj : FVals X fs) (hok : TagsOk U fs)
    (hex : ∀ f ∈ fs.infos, f.exported = true)
    (hdist : ∀ (i j : Nat) (f g : FieldInfo) (t u : Ty) (x : Val X t) (y : Val X u) (tag tag' : ATag), At obj i f t x → At obj j g u y → parseTags U f = some tag →
      parseTags U g = some tag' → p tag = true → p tag' = true → tag.name = tag'.name → i = j)
    (hf : ∀ (j : Nat) (f : FieldInfo) (t : Ty) (x : Val X t) (tag : ATag), At obj j f t x → parseTags U f = some tag → p tag = true →
      Faithful false t x) :
    ∃ d, send O fs obj (collect U (fun t _ => p t) fs v 0) [] = .ok d ∧
      ∀ (j : Nat) (f : FieldInfo) (t : Ty) (x : Val X t) (tag : ATag), At obj j f t x → parseTags U f = some tag → p tag = true →
        unmarshalField O' d tag.name f t (zero X t) = .ok x := by
  have hexAt : ∀ (fs : Fields) (obj : FVals X fs) (j : Nat) (f : FieldInfo) (t : Ty) (x : Val X t), getField fs j obj = some (f, ⟨t, x⟩) → f ∈ fs.infos := by
    intro fs
    induction fs using Fields.rec (motive_1 := fun _ => True) with
    | nil => intro obj j f t x h; cases h
    | cons g u fs _ ih =>
      intro obj j f t x h
      obtain ⟨y, ys⟩ := obj
      cases j with
      | zero => simp only [getField, Option.some.injEq, Prod.mk.injEq] at h; rw [← h.1]; exact List.mem_cons_self ..
      | succ j => exact List.mem_cons_of_mem _ (ih ys j f t x h)
    | _ => trivial
  have hmarsh : ∀ (j : Nat) (f : FieldInfo) (t : Ty) (x : Val X t) (tag : ATag), At obj j f t x → parseTags U f = some tag → p tag = true →
      ∃ n, marshal O t x = .ok n ∧ unmarshal (encH X) O' t n (zero X t) = .done x := by
    intro j f t x tag h1 h2 h3
    exact C40_round_trip hX O O' (encH X) t x (hf j f t x tag h1 h2 h3)
  have hl : ∀ a ∈ collect U (fun t _ => p t) fs v 0, ∃ f t x, At obj a.i f t x ∧ parseTags U f = some a.tag ∧ p a.tag = true := by
    intro a ha
    obtain ⟨f, t, x, h1, h2⟩ := listed_at U _ fs v obj a ha
    exact ⟨f, t, x, h1, h2, ((listed_iff U p fs v obj hok a.i f t x h1 a.tag h2).2 a ha rfl).2⟩
  obtain ⟨d, hd⟩ := send_succeeds O fs obj (collect U (fun t _ => p t) fs v 0) [] fun a ha => by
    obtain ⟨f, t, x, h1, h2, h3⟩ := hl a ha
    obtain ⟨n, hm, _⟩ := hmarsh a.i f t x a.tag h1 h2 h3
    exact ⟨f, t, x, n, h1, hex f (hexAt fs obj _ f t x h1), hm⟩
  obtain ⟨k1, k2, k3⟩ := send_keys O fs obj _ [] d hd
  have hsorted := k1 (by simp [SortedKeys])
  have hentry : ∀ k n, lookupKey k d = some n → ∃ a f t x, a ∈ collect U (fun t _ => p t) fs v 0 ∧ a.tag.name = k ∧ At obj a.i f t x ∧ marshal O t x = .ok n := by
    intro k n hk
    rcases k3 k n hk with ⟨h, _⟩ | ⟨l1, a, l2, f, t, x, e, h1, _, h3, _, h5⟩
    · simp [lookupKey] at h
    · exact ⟨a, f, t, x, by rw [e]; simp, h1, h3, h5⟩
  refine ⟨d, hd, ?_⟩
  intro j f t x tag h1 h2 h3
  have hmem := (listed_iff U p fs v obj hok j f t x h1 tag h2).1 h3
  obtain ⟨n, hn⟩ : ∃ n, lookupKey tag.name d = some n := by
    cases hk : lookupKey tag.name d with
    | some n => exact ⟨n, rfl⟩
    | none => exact absurd rfl (((k2 _).1 hk).2 _ hmem)
  obtain ⟨a, f', t', x', g1, g2, g3, g4⟩ := hentry _ n hn
  obtain ⟨f'', t'', x'', q1, q2, q3⟩ := hl a g1
  have hij := hdist a.i j f'' f t'' t x'' x a.tag tag q1 h1 q2 h2 q3 h3 g2
  rw [hij] at g3
  obtain ⟨rfl, rfl⟩ := at_inj g3 h1
  obtain ⟨_, rfl⟩ := getField_inj g3 h1
  obtain ⟨n', hm, hu⟩ := hmarsh j f' t' x' tag h1 h2 h3
  rw [g4] at hm
  injection hm with hm
  subst hm
  unfold unmarshalField
  rw [hn]
  simp only [hex f' (hexAt fs obj j f' t' x' h1), if_true, hu]
  rfl

/-- If the data unmarshals to the client's inputs, the server receives them. -/
theorem recv_crossed (U : Str → Option Str) (O' : Order) (fs : Fields) (tmpl : Option (Val X (.struct fs))) (h : AHandler)
    (hh : newHandler U (.ptr (.struct fs) tmpl) = some h) (hex : ∀ f ∈ fs.infos, f.exported = true) (uid : Option (Node X))
    (hu : (uid = none ∧ ∀ f ∈ fs.infos, IsAuth f → ¬ IsRequired f) ∨ ∀ f ∈ fs.infos, ¬ IsAuth f) (client : FVals X fs) (d' : List (Str × Node X))
    (hcross : ∀ (j : Nat) (f : FieldInfo) (t : Ty) (x : Val X t) (tag : ATag), At client j f t x → parseTags U f = some tag → tag.isIn = true →
      unmarshalField O' d' tag.name f t (zero X t) = .ok x)
    (hr : ∀ j f t (x : Val X t), At client j f t x → IsIn f → IsRequired f → x ≠ zero X t) :
    ∃ server, recv O' h fs (content fs tmpl) { data := d', uid := uid } = .ok server ∧ ∀ j f t (x : Val X t), At client j f t x → IsIn f → At server j f t x := by
  obtain ⟨hok, hin, _, hinit, hauth⟩ := newHandler_lists U fs tmpl h hh
  have hw := fun f tag ht => (C53_words U f).2 tag ht
  have hp : h.ins.Pairwise fun a b => a.i ≠ b.i := by rw [hin]; exact collect_pairwise U _ fs _ 0
  obtain ⟨v1, h1⟩ := recvInit_succeeds fs (content fs tmpl) h.init (zeroFields X fs) fun j hj => by
    rw [hinit, List.mem_map] at hj
    obtain ⟨a, ha, rfl⟩ := hj
    obtain ⟨f, t, x, g1, _⟩ := listed_at U _ fs _ (content fs tmpl) a ha
    exact ⟨f, t, x, g1, hex f (at_info g1)⟩
  have hzero : ∀ a ∈ h.ins, ∀ f t (x : Val X t), At client a.i f t x → At v1 a.i f t (zero X t) ∧ parseTags U f = some a.tag ∧ a.tag.isIn = true := by
    intro a ha f t x hx
    rw [hin] at ha
    obtain ⟨f', t', x', g1, g2⟩ := listed_at U _ fs _ client a ha
    obtain ⟨rfl, rfl⟩ := at_inj g1 hx
    have hi := ((listed_iff U (fun t => t.isIn) fs (content fs tmpl) client hok a.i f' t' x' g1 a.tag g2).2 a ha rfl).2
    refine ⟨?_, g2, hi⟩
    have hni : a.i ∉ h.init := by
      intro hj
      rw [hinit, List.mem_map] at hj
      obtain ⟨b, hb, hbi⟩ := hj
      obtain ⟨k, f'', t'', x'', q1, q2, q3, q4⟩ := collect_mem U _ fs _ 0 b hb
      have hk : k = a.i := by omega
      rw [hk] at q2
      obtain ⟨y, hy⟩ := at_any client (v := content fs tmpl) q2
      obtain ⟨rfl, _⟩ := at_inj g1 hy
      rw [g2] at q3
      injection q3 with q3
      rw [← q3] at q4
      have hi : a.tag.isIn = true := hi
      simp [hi] at q4
    exact ((recvInit_ok fs _ h.init _ v1 h1).2 a.i hni).trans (getField_zero fs client a.i f' t' x' g1)
  obtain ⟨v2, h2⟩ := recvIns_succeeds O' fs d' h.ins v1 hp fun a ha => by
    have ha' := ha
    rw [hin] at ha'
    obtain ⟨f, t, x, g1, _⟩ := listed_at U _ fs _ client a ha'
    obtain ⟨z1, z2, z3⟩ := hzero a ha f t x g1
    exact ⟨f, t, zero X t, x, z1, hcross a.i f t x a.tag g1 z2 z3,
      fun hreq => hr a.i f t x g1 ((hw f a.tag z2).2.1.1 z3) ((hw f a.tag z2).2.2.2.2.1.1 hreq)⟩
  have hfields : ∀ j f t (x : Val X t), At client j f t x → IsIn f → At v2 j f t x := by
    intro j f t x hx hi
    obtain ⟨tag, ht⟩ := hok f (at_info hx)
    have hti := (hw f tag ht).2.1.2 hi
    have hm := (listed_iff U (fun t => t.isIn) fs (content fs tmpl) client hok j f t x hx tag ht).1 hti
    rw [← hin] at hm
    obtain ⟨z1, _⟩ := hzero _ hm f t x hx
    obtain ⟨f', t', x', y', c1, c2, c3⟩ := (clientRecv_ok O' fs d' h.ins v1 v2 hp (recvIns_ok O' fs d' h.ins v1 v2 hp h2).1).1 _ hm
    obtain ⟨rfl, rfl⟩ := at_inj (v := v1) (j := j) c1 z1
    obtain ⟨_, rfl⟩ := getField_inj c1 z1
    have := hcross j f' t' x tag hx ht hti
    rw [this] at c3
    injection c3 with c3
    subst c3
    exact c2
  -- nobody is authenticated
  have hlast : ∃ obj, (match h.auth with | none => Res.ok v2 | some a => modField (authField O' uid a.tag.required) fs a.i v2) = .ok obj ∧
      ∀ j, getField fs j obj = getField fs j v2 := by
    rcases Option.eq_none_or_eq_some h.auth with ha | ⟨a, ha⟩
    · rw [ha]; exact ⟨v2, rfl, fun _ => rfl⟩
    · rw [ha]
      have hm : a ∈ collect U (fun t _ => t.auth) fs (content fs tmpl) 0 := by rw [← hauth, ha]; simp
      obtain ⟨f, t, x, g1, g2⟩ := listed_at U _ fs _ v2 a hm
      have hat := ((listed_iff U (fun t => t.auth) fs (content fs tmpl) v2 hok a.i f t x g1 a.tag g2).2 a hm rfl).2
      rcases hu with ⟨rfl, hau⟩ | hna
      rotate_left
      · exact absurd ((hw f a.tag g2).2.2.2.1.1 hat) (hna f (at_info g1))
      have hnr : a.tag.required = false := by
        cases hr' : a.tag.required with
        | false => rfl
        | true => exact absurd ((hw f a.tag g2).2.2.2.2.1.1 hr') (hau f (at_info g1) ((hw f a.tag g2).2.2.2.1.1 hat))
      show ∃ obj, modField (authField O' none a.tag.required) fs a.i v2 = _ ∧ _
      rw [hnr]
      have hg : ∀ f t (y : Val X t), authField O' none false f t y = .ok y := fun _ _ _ => rfl
      obtain ⟨obj, hobj⟩ := modField_succeeds (authField O' none false) fs a.i v2 f t x x g1 (hg f t x)
      refine ⟨obj, hobj, fun j => ?_⟩
      obtain ⟨⟨f', t', x', y', m1, m2, m3⟩, m4⟩ := modField_ok _ fs a.i v2 obj hobj
      by_cases hj : j = a.i
      · subst hj
        rw [hg] at m2
        injection m2 with m2
        subst m2
        rw [m1, m3]
      · exact m4 j hj
  obtain ⟨obj, ho1, ho2⟩ := hlast
  refine ⟨obj, ?_, fun j f t x hx hi => (ho2 j).trans (hfields j f t x hx hi)⟩
  unfold recv
  rw [h1]
  show (recvIns O' fs d' h.ins v1).bind _ = _
  rw [h2]
  exact ho1

/-- If the data unmarshals to the server's outputs, the client receives them. -/
theorem clientRecv_crossed (U : Str → Option Str) (O : Order) (fs : Fields) (tmpl : Option (Val X (.struct fs))) (h : AHandler)
    (hh : newHandler U (.ptr (.struct fs) tmpl) = some h) (server client : FVals X fs) (d' : List (Str × Node X))
    (hcross : ∀ (j : Nat) (f : FieldInfo) (t : Ty) (x : Val X t) (tag : ATag), At server j f t x → parseTags U f = some tag → tag.isOut = true →
      unmarshalField O d' tag.name f t (zero X t) = .ok x)
    (hz : ∀ j f t (x : Val X t), At client j f t x → IsOut f → x = zero X t) :
    ∃ client', clientRecv O fs d' h.outs client = .ok client' ∧ ∀ j f t (x y : Val X t), At server j f t x → At client j f t y →
      (IsOut f → At client' j f t x) ∧ (¬ IsOut f → At client' j f t y) := by
  obtain ⟨hok, _, hout, _⟩ := newHandler_lists U fs tmpl h hh
  have hw := fun f tag ht => (C53_words U f).2 tag ht
  have hp : h.outs.Pairwise fun a b => a.i ≠ b.i := by rw [hout]; exact collect_pairwise U _ fs _ 0
  have hlist : ∀ a ∈ h.outs, ∃ f t x, At server a.i f t x ∧ At client a.i f t (zero X t) ∧ parseTags U f = some a.tag ∧ a.tag.isOut = true := by
    intro a ha
    rw [hout] at ha
    obtain ⟨f, t, x, g1, g2⟩ := listed_at U _ fs _ server a ha
    have hi := ((listed_iff U (fun t => t.isOut) fs (content fs tmpl) server hok a.i f t x g1 a.tag g2).2 a ha rfl).2
    obtain ⟨y, hy⟩ := at_any client g1
    have := hz a.i f t y hy ((hw f a.tag g2).2.2.1.1 hi)
    rw [this] at hy
    exact ⟨f, t, x, g1, hy, g2, hi⟩
  obtain ⟨w, hw'⟩ := clientRecv_succeeds O fs d' h.outs client hp fun a ha => by
    obtain ⟨f, t, x, g1, g2, g3, g4⟩ := hlist a ha
    exact ⟨f, t, zero X t, x, g2, hcross a.i f t x a.tag g1 g3 g4⟩
  refine ⟨w, ?_, fun j f t x y hx hy => ⟨fun ho => ?_, fun ho => C51_client U O fs tmpl h hh d' client w hw' j f t y hy ho⟩⟩
  · exact hw'
  · obtain ⟨tag, ht⟩ := hok f (at_info hx)
    have hto := (hw f tag ht).2.2.1.2 ho
    have hm := (listed_iff U (fun t => t.isOut) fs (content fs tmpl) server hok j f t x hx tag ht).1 hto
    rw [← hout] at hm
    obtain ⟨f', t', x', y', c1, c2, c3⟩ := (clientRecv_ok O fs d' h.outs client w hp hw').1 _ hm
    obtain ⟨rfl, rfl⟩ := at_inj (v := client) (j := j) c1 hy
    obtain ⟨_, rfl⟩ := getField_inj c1 hy
    have := hz j f' t' x' hy ho
    subst this
    rw [hcross j f' t' x tag hx ht hto] at c3
    injection c3 with c3
    subst c3
    exact c2

/-! ### what survives JSON survives without -/

mutual
theorem any_weaken : ∀ a : Any X, a.Faithful true → a.Faithful false
  | .nil, _ | .bool _, _ | .str _, _ => trivial
  | .f64 _, _ => fun h => by cases h
  | .i64 _, h => by cases h
  | .list l, h => list_weaken l h
  | .map m, h => ⟨h.1, map_weaken m h.2⟩
  | .time _, h | .dur _, h | .encTime _, h | .encDur _, h => by cases h
theorem list_weaken : ∀ l : List (Any X), Any.listFaithful true l → Any.listFaithful false l
  | [], _ => trivial
  | a :: l, h => ⟨any_weaken a h.1, list_weaken l h.2⟩
theorem map_weaken : ∀ m : List (Str × Any X), Any.mapFaithful true m → Any.mapFaithful false m
  | [], _ => trivial
  | (_, a) :: m, h => ⟨any_weaken a h.1, map_weaken m h.2⟩
end

mutual
theorem faithful_weaken : ∀ (t : Ty) (v : Val X t), Faithful true t v → Faithful false t v
  | .bool, _, _ | .int _, _, _ | .string, _, _ | .iface, _, _ => trivial
  | .uint _, _, h => h
  | .float64, _, _ => fun h => by cases h
  | .float32, _, h => ⟨h.1, fun h => by cases h⟩
  | .any, a, h => any_weaken a h
  | .node, _, h => h
  | .time, _, h | .encTime, _, h | .encDur, _, h => h
  | .func, _, h | .chan, _, h => by cases h
  | .ptr t, v, h => by
    cases v with
    | none => exact h
    | some x => exact ⟨faithful_weaken t x h.1, h.2⟩
  | .slice t, v, h => by
    cases v with
    | none => trivial
    | some l => exact fun x hx => faithful_weaken t x (h x hx)
  | .array n t, v, h => fun x hx => faithful_weaken t x (h x hx)
  | .map k t, v, h => by
    cases v with
    | none => trivial
    | some m => exact ⟨h.1, fun e he => ⟨(h.2 e he).1, faithful_weaken t e.2 (h.2 e he).2⟩⟩
  | .struct fs, v, h => ⟨h.1, h.2.1, fields_weaken fs v h.2.2⟩
theorem fields_weaken : ∀ (fs : Fields) (v : FVals X fs), FaithfulFields true fs v → FaithfulFields false fs v
  | .nil, _, _ => trivial
  | .cons f t fs, (v, vs), h => by
    refine ⟨?_, fields_weaken fs vs h.2⟩
    have h1 := h.1
    revert h1
    cases f.exported <;> cases parseTag f <;> try exact id
    rename_i tag
    dsimp only
    split
    · exact id
    · exact fun h => ⟨faithful_weaken t v h.1, h.2⟩
end

theorem fvals_ext : ∀ (fs : Fields) (v w : FVals X fs), (∀ j f t (x : Val X t), At v j f t x → At w j f t x) → v = w
  | .nil, _, _, _ => rfl
  | .cons f t fs, (v, vs), (w, ws), h => by
    have h0 := h 0 f t v rfl
    simp only [At, getField, Option.some.injEq, Prod.mk.injEq, true_and] at h0
    have h0 : w = v := by cases h0; rfl
    have h1 := fvals_ext fs vs ws fun j g u x hx => h (j + 1) g u x hx
    rw [h0, h1]

/-- The fields `P` accepts are read back from the node they are written as. -/
def SurviveNodes {fs : Fields} (P : FieldInfo → Prop) (obj : FVals X fs) : Prop := ∀ (j : Nat) (f : FieldInfo) (t : Ty) (x : Val X t), At obj j f t x → P f → Faithful false t x

/-- The same inputs. -/
def SameIns {fs : Fields} (a b : FVals X fs) : Prop := ∀ j f t (x : Val X t), At a j f t x → IsIn f → At b j f t x

/-- The same outputs. -/
def SameOuts {fs : Fields} (a b : FVals X fs) : Prop := ∀ j f t (x : Val X t), At a j f t x → IsOut f → At b j f t x

theorem same_trans {fs : Fields} {P : FieldInfo → Prop} {a b c : FVals X fs} (h1 : ∀ j f t (x : Val X t), At a j f t x → P f → At b j f t x)
    (h2 : ∀ j f t (x : Val X t), At a j f t x → P f → At c j f t x) : ∀ j f t (x : Val X t), At b j f t x → P f → At c j f t x := by
  intro j f t x hx hp
  obtain ⟨y, hy⟩ := at_any a hx
  obtain ⟨_, rfl⟩ := getField_inj (h1 j f t y hy hp) hx
  exact h2 j f t y hy hp

theorem test_request (hX : Laws X) (U : Str → Option Str) (O O' : Order) (fs : Fields) (tmpl : Option (Val X (.struct fs))) (h : AHandler)
    (hh : newHandler U (.ptr (.struct fs) tmpl) = some h) (hex : ∀ f ∈ fs.infos, f.exported = true) (uid : Option (Node X))
    (hu : (uid = none ∧ ∀ f ∈ fs.infos, IsAuth f → ¬ IsRequired f) ∨ ∀ f ∈ fs.infos, ¬ IsAuth f)
    (client : FVals X fs) (hd : DistinctNames IsIn client) (hs : SurviveNodes IsIn client)
    (hr : ∀ j f t (x : Val X t), At client j f t x → IsIn f → IsRequired f → x ≠ zero X t) :
    ∃ d s, send O fs client h.ins [] = .ok d ∧ recv O' h fs (content fs tmpl) { data := d, uid := uid } = .ok s ∧ SameIns client s := by
  obtain ⟨hok, hin, _, _, _⟩ := newHandler_lists U fs tmpl h hh
  have hw := fun f tag ht => (C53_words U f).2 tag ht
  obtain ⟨d, hsend, hcross⟩ := cross_nodes hX U (fun t => t.isIn) O O' fs (content fs tmpl) client hok hex
    (fun i j f g t u x y tag tag' h1 h2 h3 h4 h5 h6 h7 => hd i j f g t u x y h1 h2 ((hw f tag h3).2.1.1 h5) ((hw g tag' h4).2.1.1 h6)
      ((hw f tag h3).1.symm.trans (h7.trans (hw g tag' h4).1)))
    (fun j f t x tag h1 h2 h3 => hs j f t x h1 ((hw f tag h2).2.1.1 h3))
  rw [← hin] at hsend
  obtain ⟨s, h1, h2⟩ := recv_crossed U O' fs tmpl h hh hex uid hu client d hcross hr
  exact ⟨d, s, hsend, h1, h2⟩

theorem test_response (hX : Laws X) (U : Str → Option Str) (O O' : Order) (fs : Fields) (tmpl : Option (Val X (.struct fs))) (h : AHandler)
    (hh : newHandler U (.ptr (.struct fs) tmpl) = some h) (hex : ∀ f ∈ fs.infos, f.exported = true)
    (server client : FVals X fs) (hd : DistinctNames IsOut server) (hs : SurviveNodes IsOut server)
    (hz : ∀ j f t (x : Val X t), At client j f t x → IsOut f → x = zero X t) :
    ∃ d client', send O' fs server h.outs [] = .ok d ∧ clientRecv O fs d h.outs client = .ok client' ∧
      ∀ j f t (x y : Val X t), At server j f t x → At client j f t y → (IsOut f → At client' j f t x) ∧ (¬ IsOut f → At client' j f t y) := by
  obtain ⟨hok, _, hout, _⟩ := newHandler_lists U fs tmpl h hh
  have hw := fun f tag ht => (C53_words U f).2 tag ht
  obtain ⟨d, hsend, hcross⟩ := cross_nodes hX U (fun t => t.isOut) O' O fs (content fs tmpl) server hok hex
    (fun i j f g t u x y tag tag' h1 h2 h3 h4 h5 h6 h7 => hd i j f g t u x y h1 h2 ((hw f tag h3).2.2.1.1 h5) ((hw g tag' h4).2.2.1.1 h6)
      ((hw f tag h3).1.symm.trans (h7.trans (hw g tag' h4).1)))
    (fun j f t x tag h1 h2 h3 => hs j f t x h1 ((hw f tag h2).2.2.1.1 h3))
  rw [← hout] at hsend
  obtain ⟨c, h1, h2⟩ := clientRecv_crossed U O fs tmpl h hh server client d hcross hz
  exact ⟨d, c, hsend, h1, h2⟩

/-! ### C119 -/

/-- A test runs `Do` on the inputs of the object and leaves the outputs in it: whatever the object, if its inputs and what `Do` computes are read back from
their nodes, the outputs of the object are zero, and no identity is wanted. -/
theorem C119_test (hX : Laws X) (U : Str → Option Str) (O O' : Order) (fs : Fields) (obj : FVals X fs) (hh : (newHandler U (.ptr (.struct fs) (some obj))).isSome = true)
    (hex : ∀ f ∈ fs.infos, f.exported = true) (hau : ∀ f ∈ fs.infos, ¬ IsAuth f) (hd : DistinctNames IsIn obj) (hs : SurviveNodes IsIn obj)
    (hr : ∀ j f t (x : Val X t), At obj j f t x → IsIn f → IsRequired f → x ≠ zero X t)
    (hz : ∀ j f t (x : Val X t), At obj j f t x → IsOut f → x = zero X t)
    (exec : FVals X fs → Res (FVals X fs)) (hexec : ∀ s, SameIns obj s → ∃ s', exec s = .ok s' ∧ DistinctNames IsOut s' ∧ SurviveNodes IsOut s')
    (u : Ty) (uid : Val X u) (n : Node X) (hm : marshal O u uid = .ok n) :
    ∃ s s' obj', SameIns obj s ∧ exec s = .ok s' ∧ apiTest U O O' fs exec obj = .ok obj' ∧ (∀ j f t (x y : Val X t), At s' j f t x → At obj j f t y →
      (IsOut f → At obj' j f t x) ∧ (¬ IsOut f → At obj' j f t y)) ∧
      ∃ s s' obj', SameIns obj s ∧ exec s = .ok s' ∧ testAPI U O O' fs uid exec obj = .ok obj' ∧ (∀ j f t (x y : Val X t), At s' j f t x → At obj j f t y →
      (IsOut f → At obj' j f t x) ∧ (¬ IsOut f → At obj' j f t y)) := by
  obtain ⟨h, hh⟩ := Option.isSome_iff_exists.1 hh
  have key : ∀ o, ∃ s s' obj', SameIns obj s ∧ exec s = .ok s' ∧ testCall O O' h fs o exec obj = .ok obj' ∧ (∀ j f t (x y : Val X t), At s' j f t x → At obj j f t y →
      (IsOut f → At obj' j f t x) ∧ (¬ IsOut f → At obj' j f t y)) := by
    intro o
    obtain ⟨d, s, h1, h2, h3⟩ := test_request hX U O O' fs (some obj) h hh hex o (Or.inr hau) obj hd hs hr
    obtain ⟨s', e1, e2, e3⟩ := hexec s h3
    obtain ⟨d', c, r1, r2, r3⟩ := test_response hX U O O' fs (some obj) h hh hex s' obj e2 e3 hz
    refine ⟨s, s', c, h3, e1, ?_, r3⟩
    unfold testCall
    rw [h1]
    show (recv O' h fs obj { data := d, uid := o }).bind _ = _
    rw [show recv O' h fs obj { data := d, uid := o } = _ from h2]
    show (exec s).bind _ = _
    rw [e1]
    show (send O' fs s' h.outs []).bind _ = _
    rw [r1]
    exact r2
  obtain ⟨s, s', c, k1, k2, k3, k4⟩ := key none
  refine ⟨s, s', c, k1, k2, by unfold apiTest; rw [hh]; exact k3, k4, ?_⟩
  obtain ⟨s, s', c, k1, k2, k3, k4⟩ := key (some n)
  exact ⟨s, s', c, k1, k2, by unfold testAPI; rw [hh, hm]; exact k3, k4⟩

/-- And then the test says what the call over JSON does, whatever the template of the server is: both leave the same object, or both fail, if the inputs and the outputs
survive JSON, no identity is required, and `Do` is a function of the inputs. -/
theorem C119_agrees_partial (hX : Laws X) (U : Str → Option Str) (O O' : Order) (fs : Fields) (obj : FVals X fs) (tmpl : Option (Val X (.struct fs))) (h : AHandler)
    (hh : newHandler U (.ptr (.struct fs) tmpl) = some h)
    (hex : ∀ f ∈ fs.infos, f.exported = true) (hau : ∀ f ∈ fs.infos, IsAuth f → ¬ IsRequired f) (hd : DistinctNames IsIn obj) (hs : Survive O IsIn obj)
    (hr : ∀ j f t (x : Val X t), At obj j f t x → IsIn f → IsRequired f → x ≠ zero X t)
    (hz : ∀ j f t (x : Val X t), At obj j f t x → IsOut f → x = zero X t)
    (exec : FVals X fs → Res (FVals X fs))
    (hexec : ∀ s r, SameIns s r → (exec s = .err ∧ exec r = .err) ∨ (exec s = .panic ∧ exec r = .panic) ∨
      ∃ s' r', exec s = .ok s' ∧ exec r = .ok r' ∧ SameOuts s' r' ∧ DistinctNames IsOut s' ∧ Survive O' IsOut s') :
    apiTest U O O' fs exec obj = call O O' h fs (content fs tmpl) exec obj := by
  have hh0 : (newHandler U (.ptr (.struct fs) (some obj))).isSome = true := by
    have h1 : (newHandler U (.ptr (.struct fs) tmpl)).isSome = true := by rw [hh]; rfl
    obtain ⟨fs', v', e, g1, g2⟩ := (C53_valid U _).1 h1
    cases e
    exact (C53_valid U _).2 ⟨fs, some obj, rfl, g1, g2⟩
  obtain ⟨h0, hh0⟩ := Option.isSome_iff_exists.1 hh0
  obtain ⟨d, s, h1, h2, h3⟩ := test_request hX U O O' fs (some obj) h0 hh0 hex none (Or.inl ⟨rfl, hau⟩) obj hd (fun j f t x hx hi => faithful_weaken t x (hs j f t x hx hi).1) hr
  obtain ⟨r, q1, q2⟩ := C52_request hX U O O' fs tmpl h hh hex hau obj hd hs hr
  have hsr : SameIns s r := same_trans h3 q2
  unfold apiTest call
  rw [hh0, q1]
  unfold testCall
  show (send O fs obj h0.ins []).bind _ = _
  rw [h1]
  show (recv O' h0 fs obj { data := d, uid := none }).bind _ = (exec r).bind _
  rw [show recv O' h0 fs obj { data := d, uid := none } = _ from h2]
  show (exec s).bind _ = (exec r).bind _
  rcases hexec s r hsr with ⟨e1, e2⟩ | ⟨e1, e2⟩ | ⟨s', r', e1, e2, e3, e4, e5⟩
  · rw [e1, e2]; rfl
  · rw [e1, e2]; rfl
  · rw [e1, e2]
    show (send O' fs s' h0.outs []).bind _ = response O O' h fs r' obj
    have back : ∀ j f t (x : Val X t), At r' j f t x → IsOut f → At s' j f t x := same_trans e3 fun _ _ _ _ hx _ => hx
    obtain ⟨d', c, w1, w2, w3⟩ := test_response hX U O O' fs (some obj) h0 hh0 hex s' obj e4 (fun j f t x hx hi => faithful_weaken t x (e5 j f t x hx hi).1) hz
    obtain ⟨c', v1, v2⟩ := C52_response hX U O O' fs tmpl h hh hex r' obj
      (fun i j f g t u x y hx hy hf hg => e4 i j f g t u x y (back i f t x hx hf) (back j g u y hy hg) hf hg) (fun j f t x hx hi => e5 j f t x (back j f t x hx hi) hi) hz
    rw [w1, v1]
    refine w2.trans (congrArg Res.ok (fvals_ext fs c c' fun j f t x hx => ?_))
    obtain ⟨x1, hx1⟩ := at_any s' hx
    obtain ⟨x2, hx2⟩ := at_any r' hx
    obtain ⟨x3, hx3⟩ := at_any obj hx
    by_cases ho : IsOut f
    · have a := (w3 j f t x1 x3 hx1 hx3).1 ho
      have b := (v2 j f t x2 x3 hx2 hx3).1 ho
      have e := e3 j f t x1 hx1 ho
      obtain ⟨_, rfl⟩ := getField_inj a hx
      obtain ⟨_, rfl⟩ := getField_inj e hx2
      exact b
    · have a := (w3 j f t x1 x3 hx1 hx3).2 ho
      have b := (v2 j f t x2 x3 hx2 hx3).2 ho
      obtain ⟨_, rfl⟩ := getField_inj a hx
      exact b

/-- The greeting of `greet`: the prefix, and the name. -/
def greetDo : FVals XT greetTy → Res (FVals XT greetTy)
  | (r, name, n, uid, _, prefix', u) => .ok (r, name, n, uid, List.append (α := Char) prefix' name, prefix', u)

/-- The same with no identity: `struct { Name string "in"; Text string "out"; Prefix string }`. -/
def hiTy : Fields :=
  .cons { name := lit "Name", api := lit "in" } .string <| .cons { name := lit "Text", api := lit "out" } .string <| .cons { name := lit "Prefix" } .string .nil

/-- Its `Do`. -/
def hiDo : FVals XT hiTy → Res (FVals XT hiTy)
  | (name, _, prefix', u) => .ok (name, List.append (α := Char) prefix' name, prefix', u)

/-- C119 is violated: `TestAPI` succeeds for an API that requires an identity, and every call over the wire fails. -/
theorem C119_auth_violated :
    textAt 4 (testAPI (u := .string) anyUrl sortedOrder sortedOrder greetTy (lit "u1") greetDo (Any.nil, lit "Bob", (0 : BitVec 8), lit "", lit "", lit "Hi ", ())) = some (lit "Hi Bob") ∧
    ∀ (U : Str → Option Str) (O O' : Order) (tmpl : Option (Val XT (.struct greetTy))) (h : AHandler), newHandler U (.ptr (.struct greetTy) tmpl) = some h →
      ∀ (now : FVals XT greetTy) exec client client', call O O' h greetTy now exec client ≠ .ok client' := by
  refine ⟨by decide +kernel, fun U O O' tmpl h hh now exec client client' hc => ?_⟩
  unfold call request at hc
  obtain ⟨s, h1, _⟩ := bind_ok hc
  obtain ⟨d, _, h1⟩ := bind_ok h1
  obtain ⟨d', _, h1⟩ := bind_ok h1
  obtain ⟨n, hn, _⟩ := C50_auth_required U O' greetTy tmpl h hh now _ s h1 { name := lit "UID", api := lit "auth,required" } (by simp [greetTy, Fields.infos])
    (by unfold IsAuth; decide +kernel) (by unfold IsRequired; decide +kernel)
  cases hn

/-- C119 is violated: a field that is neither input nor output is in the test what it is in the tested object, because that is the template of the server; over the
wire it is what the server's template says. -/
theorem C119_state_violated :
    textAt 1 (apiTest anyUrl sortedOrder sortedOrder hiTy hiDo (lit "Bob", lit "", lit "Hi ", ())) = some (lit "Hi Bob") ∧
    textAt 1 ((newHandler (X := XT) anyUrl (.ptr (.struct hiTy) none)).elim .err fun h =>
      call sortedOrder sortedOrder h hiTy (content hiTy none) hiDo (lit "Bob", lit "", lit "Hi ", ())) = some (lit "Bob") := by
  decide +kernel

/-- `struct { V any "in"; Kind string "out" }` -/
def kindTy : Fields := .cons { name := lit "V", api := lit "in" } .any <| .cons { name := lit "Kind", api := lit "out" } .string .nil

/-- Which type the value has. -/
def kindDo : FVals XT kindTy → Res (FVals XT kindTy)
  | (v, _, u) => .ok (v, (match (v : Any XT) with | .i64 _ => lit "int" | .f64 _ => lit "float" | _ => lit "other"), u)

/-- C119 is violated: integers in an `any` are integers in the test, and floats over the wire. -/
theorem C119_int_violated :
    textAt 1 (apiTest anyUrl sortedOrder sortedOrder kindTy kindDo (Any.i64 0, lit "", ())) = some (lit "int") ∧
    textAt 1 ((newHandler (X := XT) anyUrl (.ptr (.struct kindTy) none)).elim .err fun h =>
      call sortedOrder sortedOrder h kindTy (content kindTy none) kindDo (Any.i64 0, lit "", ())) = some (lit "float") := by
  decide +kernel

/-- C119 is violated: floats JSON can not write pass the test, and no call that sends one succeeds. -/
theorem C119_float_violated (f : X.F) (hf : X.fJson f = none) (O O' : Order) (U : Str → Option Str) :
    let fs : Fields := .cons { name := lit "V", api := lit "in" } .float64 .nil
    apiTest (X := X) U O O' fs .ok (f, ()) = .ok (f, ()) ∧
    ∃ h, newHandler (X := X) U (.ptr (.struct fs) none) = some h ∧ ∀ now exec, call O O' h fs now exec (f, ()) = .panic := by
  refine ⟨rfl, _, rfl, fun now exec => ?_⟩
  have he : (Node.map [(lit "V", Node.float f)] : Node X).encodable = false := by simp [Node.encodable, Node.mapEncodable, hf]
  have ho : overJson [(lit "V", (Node.float f : Node X))] = .panic := by simp [overJson, encode, he]
  exact congrArg (fun r => ((Res.bind r fun d => recv O' _ _ now { data := d }).bind fun s => (exec s).bind fun s => response O O' _ _ s (f, ()))) ho

/-- C119: a test, and the same call with another template. -/
example : textAt 1 (apiTest anyUrl sortedOrder sortedOrder hiTy hiDo (lit "Bob", lit "", lit "", ())) = some (lit "Bob") ∧
    textAt 1 ((newHandler (X := XT) anyUrl (.ptr (.struct hiTy) (some (lit "x", lit "y", lit "", ())))).elim .err fun h =>
      call sortedOrder sortedOrder h hiTy (content hiTy none) hiDo (lit "Bob", lit "", lit "", ())) = some (lit "Bob") := by
  decide +kernel

end Verif.Api

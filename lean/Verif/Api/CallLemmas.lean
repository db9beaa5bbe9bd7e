import Verif.Api.Props
/-!
# Helper lemmas on calls
-/
set_option autoImplicit false
namespace Verif.Api
open Verif.Strconv Verif.Enc

variable {X : Ext} [DecidableEq X.F] [DecidableEq X.T]

/-- The lists of a handler. -/
theorem newHandler_lists (U : Str → Option Str) (fs : Fields) (tmpl : Option (Val X (.struct fs))) (h : AHandler) (hh : newHandler U (.ptr (.struct fs) tmpl) = some h) :
    TagsOk U fs ∧ h.ins = collect U (fun t _ => t.isIn) fs (content fs tmpl) 0 ∧ h.outs = collect U (fun t _ => t.isOut) fs (content fs tmpl) 0 ∧
    h.init = (collect U (fun t z => !t.isIn && !t.isOut && t.url.isNone && !z) fs (content fs tmpl) 0).map (·.i) ∧
    h.auth.toList = collect U (fun t _ => t.auth) fs (content fs tmpl) 0 := by
  obtain ⟨h1, h2, h3, h4, h5, _⟩ := scan_some U fs (content fs tmpl) 0 {} h hh
  exact ⟨h1, by simpa using h2, by simpa using h3, by simpa using h4, by simpa using h5⟩

/-- A listed field, seen in any object. -/
theorem listed_at (U : Str → Option Str) (sel : ATag → Bool → Bool) (fs : Fields) (v w : FVals X fs) (a : HField) (h : a ∈ collect U sel fs v 0) :
    ∃ f t x, At w a.i f t x ∧ parseTags U f = some a.tag := by
  obtain ⟨j, f, t, x, h1, h2, h3, _⟩ := collect_mem U sel fs v 0 a h
  obtain ⟨y, hy⟩ := getField_any fs v w j f t x h2
  exact ⟨f, t, y, by unfold At; rw [h1, Nat.zero_add]; exact hy, h3⟩

theorem at_inj {fs : Fields} {v : FVals X fs} {j : Nat} {f f' : FieldInfo} {t t' : Ty} {x : Val X t} {y : Val X t'} (h : At v j f t x) (h' : At v j f' t' y) :
    f = f' ∧ t = t' := by
  unfold At at h h'
  rw [h] at h'
  simp only [Option.some.injEq, Prod.mk.injEq] at h'
  exact ⟨h'.1, (Sigma.mk.inj h'.2).1⟩

/-- The field's tag decides whether it is in a list that depends on the tag only. -/
theorem listed_iff (U : Str → Option Str) (p : ATag → Bool) (fs : Fields) (v w : FVals X fs) (hok : TagsOk U fs) (j : Nat) (f : FieldInfo) (t : Ty) (x : Val X t)
    (hj : At w j f t x) (tag : ATag) (ht : parseTags U f = some tag) :
    (p tag = true → (⟨j, tag⟩ : HField) ∈ collect U (fun t _ => p t) fs v 0) ∧ (∀ a ∈ collect U (fun t _ => p t) fs v 0, a.i = j → a.tag = tag ∧ p tag = true) := by
  constructor
  · intro hp
    obtain ⟨y, hy⟩ := getField_any fs w v j f t x hj
    have := collect_of_getField U (fun t _ => p t) fs v 0 j f t y tag hok hy ht hp
    rwa [Nat.zero_add] at this
  · intro a ha hi
    obtain ⟨k, f', t', x', h1, h2, h3, h4⟩ := collect_mem U _ fs v 0 a ha
    have : k = j := by omega
    subst this
    obtain ⟨y, hy⟩ := getField_any fs w v k f t x hj
    obtain ⟨rfl, _⟩ := at_inj (v := v) (j := k) h2 hy
    rw [ht] at h3
    injection h3 with h3
    subst h3
    exact ⟨rfl, h4⟩

/-- The stages of `Recv`. -/
theorem recv_stages (O : Order) (h : AHandler) (fs : Fields) (now : FVals X fs) (req : Req X) (obj : FVals X fs) (hr : recv O h fs now req = .ok obj) :
    ∃ v1 v2, recvInit fs now h.init (zeroFields X fs) = .ok v1 ∧ recvIns O fs req.data h.ins v1 = .ok v2 ∧
      ((h.auth = none ∧ obj = v2) ∨ ∃ a, h.auth = some a ∧ modField (authField O req.uid a.tag.required) fs a.i v2 = .ok obj) := by
  unfold recv at hr
  obtain ⟨v1, h1, hr⟩ := bind_ok hr
  obtain ⟨v2, h2, hr⟩ := bind_ok hr
  refine ⟨v1, v2, h1, h2, ?_⟩
  split at hr
  · rename_i ha
    injection hr with hr
    exact .inl ⟨ha, hr.symm⟩
  · rename_i a ha
    exact .inr ⟨a, ha, hr⟩

/-- What a successful read of a field from zero gives. -/
theorem decoded_of_unmarshal (O : Order) (data : List (Str × Node X)) (name : Str) (f : FieldInfo) (t : Ty) (y : Val X t)
    (h : unmarshalField O data name f t (zero X t) = .ok y) : Decoded O data name t y := by
  unfold unmarshalField at h
  unfold Decoded
  split
  · rename_i hl
    rw [hl] at h
    injection h with h; exact h.symm
  · rename_i n hl
    rw [hl] at h
    simp only at h
    split at h
    · unfold outRes at h
      split at h
      · rename_i hs
        injection h with h
        exact ⟨hs, h.symm⟩
      · cases h
      · cases h
    · cases h

/-- The object before the identity of the caller is filled in. -/
theorem stage_field (U : Str → Option Str) (O : Order) (fs : Fields) (tmpl : Option (Val X (.struct fs))) (h : AHandler)
    (hh : newHandler U (.ptr (.struct fs) tmpl) = some h) (now : FVals X fs) (req : Req X) (v1 v2 : FVals X fs)
    (h1 : recvInit fs now h.init (zeroFields X fs) = .ok v1) (h2 : recvIns O fs req.data h.ins v1 = .ok v2)
    (j : Nat) (f : FieldInfo) (t : Ty) (x y z : Val X t) (hx : At v2 j f t x) (hy : At now j f t y) (hz : At (content fs tmpl) j f t z)
    (tag : ATag) (ht : parseTags U f = some tag) :
    (tag.isIn = true → Decoded O req.data tag.name t x ∧ (tag.required = true → x ≠ zero X t)) ∧
    (tag.isIn = false → (tag.isOut = true ∨ tag.url.isSome = true) → x = zero X t) ∧
    (tag.isIn = false → tag.isOut = false → tag.url.isNone = true → (z ≠ zero X t → x = y) ∧ (z = zero X t → x = zero X t)) := by
  obtain ⟨hok, hin, _, hinit, _⟩ := newHandler_lists U fs tmpl h hh
  have hp : h.ins.Pairwise fun a b => a.i ≠ b.i := by rw [hin]; exact collect_pairwise U _ fs _ 0
  obtain ⟨i1, i2⟩ := recvInit_ok fs now h.init _ v1 h1
  obtain ⟨r1, r2⟩ := recvIns_ok O fs req.data h.ins v1 v2 hp h2
  obtain ⟨c1, c2⟩ := clientRecv_ok O fs req.data h.ins v1 v2 hp r1
  obtain ⟨l1, l2⟩ := listed_iff U (fun t => t.isIn) fs (content fs tmpl) v2 hok j f t x hx tag ht
  have hzero : getField fs j (zeroFields X fs) = some (f, ⟨t, zero X t⟩) := getField_zero fs v2 j f t x hx
  -- membership in the initial values
  have hmem : j ∈ h.init → tag.isIn = false ∧ tag.isOut = false ∧ tag.url.isNone = true ∧ z ≠ zero X t := by
    intro hj
    rw [hinit, List.mem_map] at hj
    obtain ⟨a, ha, hai⟩ := hj
    obtain ⟨k, f', t', x', g1, g2, g3, g4⟩ := collect_mem U _ fs _ 0 a ha
    have : k = j := by omega
    subst this
    obtain ⟨rfl, rfl⟩ := at_inj (v := content fs tmpl) (j := k) g2 hz
    obtain ⟨_, rfl⟩ := getField_inj g2 hz
    rw [ht] at g3
    injection g3 with g3
    rw [← g3] at g4
    simp only [Bool.and_eq_true, Bool.not_eq_true'] at g4
    refine ⟨g4.1.1.1, g4.1.1.2, g4.1.2, fun hc => ?_⟩
    have := (isZero_iff t' x').2 hc
    rw [this] at g4
    exact absurd g4.2 (by decide)
  refine ⟨fun hi => ?_, fun hi ho => ?_, fun hi ho hu => ⟨fun hne => ?_, fun he => ?_⟩⟩
  · have hl := l1 hi
    rw [← hin] at hl
    obtain ⟨f', t', x', y', d1, d2, d3⟩ := c1 _ hl
    obtain ⟨rfl, rfl⟩ := at_inj (v := v2) (j := j) d2 hx
    obtain ⟨_, rfl⟩ := getField_inj d2 hx
    have hni : j ∉ h.init := fun hj => by have := (hmem hj).1; rw [hi] at this; cases this
    rw [i2 j hni] at d1
    obtain ⟨_, rfl⟩ := getField_inj hzero d1
    refine ⟨decoded_of_unmarshal O req.data tag.name f' t' y' d3, fun hr hc => ?_⟩
    have := r2 _ hl hr
    unfold fieldZero at this
    simp only [d2] at this
    rw [(isZero_iff t' y').2 hc] at this
    cases this
  · have hnl : ∀ a ∈ h.ins, a.i ≠ j := by
      intro a ha hai
      rw [hin] at ha
      have := (l2 a ha hai).2
      rw [hi] at this; cases this
    have hni : j ∉ h.init := by
      intro hj
      obtain ⟨_, h2, h3, _⟩ := hmem hj
      rcases ho with ho | ho
      · rw [h2] at ho; cases ho
      · rw [Option.isNone_iff_eq_none] at h3; rw [h3] at ho; cases ho
    have := c2 j hnl
    rw [i2 j hni, hzero] at this
    exact (getField_inj hx this).2
  · have hnl : ∀ a ∈ h.ins, a.i ≠ j := by
      intro a ha hai
      rw [hin] at ha
      have := (l2 a ha hai).2
      rw [hi] at this; cases this
    have hj : j ∈ h.init := by
      rw [hinit, List.mem_map]
      have hnz : isZero t z = false := by
        cases hzz : isZero t z with
        | false => rfl
        | true => exact absurd ((isZero_iff t z).1 hzz) hne
      have := collect_of_getField U (fun t z => !t.isIn && !t.isOut && t.url.isNone && !z) fs (content fs tmpl) 0 j f t z tag hok hz ht (by simp [hi, ho, hnz]; simpa using hu)
      exact ⟨_, this, by simp⟩
    have := c2 j hnl
    rw [i1 j hj] at this
    exact (getField_inj hx (this.trans hy)).2
  · have hnl : ∀ a ∈ h.ins, a.i ≠ j := by
      intro a ha hai
      rw [hin] at ha
      have := (l2 a ha hai).2
      rw [hi] at this; cases this
    have hni : j ∉ h.init := fun hj => (hmem hj).2.2.2 he
    have := c2 j hnl
    rw [i2 j hni, hzero] at this
    exact (getField_inj hx this).2

/-- Fields other than the one for the identity are left alone by the last stage. -/
theorem auth_other (U : Str → Option Str) (O : Order) (fs : Fields) (tmpl : Option (Val X (.struct fs))) (h : AHandler)
    (hh : newHandler U (.ptr (.struct fs) tmpl) = some h) (req : Req X) (v2 obj : FVals X fs)
    (hr : (h.auth = none ∧ obj = v2) ∨ ∃ a, h.auth = some a ∧ modField (authField O req.uid a.tag.required) fs a.i v2 = .ok obj)
    (j : Nat) (f : FieldInfo) (t : Ty) (x : Val X t) (hx : At obj j f t x) (tag : ATag) (ht : parseTags U f = some tag) (hna : tag.auth = false) : At v2 j f t x := by
  rcases hr with ⟨_, rfl⟩ | ⟨a, ha, hm⟩
  · exact hx
  · have hl := (newHandler_lists U fs tmpl h hh)
    obtain ⟨_, h2⟩ := modField_ok _ fs a.i v2 obj hm
    have hne : j ≠ a.i := by
      intro hj
      have hmem : a ∈ collect U (fun t _ => t.auth) fs (content fs tmpl) 0 := by rw [← hl.2.2.2.2, ha]; simp
      have := ((listed_iff U (fun t => t.auth) fs (content fs tmpl) obj hl.1 j f t x hx tag ht).2 a hmem hj.symm).2
      rw [hna] at this; cases this
    exact (h2 j hne).symm.trans hx

/-- The identity of the caller. -/
theorem auth_this (U : Str → Option Str) (O : Order) (fs : Fields) (tmpl : Option (Val X (.struct fs))) (h : AHandler)
    (hh : newHandler U (.ptr (.struct fs) tmpl) = some h) (req : Req X) (v2 obj : FVals X fs)
    (hr : (h.auth = none ∧ obj = v2) ∨ ∃ a, h.auth = some a ∧ modField (authField O req.uid a.tag.required) fs a.i v2 = .ok obj)
    (j : Nat) (f : FieldInfo) (t : Ty) (x : Val X t) (hx : At obj j f t x) (tag : ATag) (ht : parseTags U f = some tag) (hau : tag.auth = true) :
    ∃ w, At v2 j f t w ∧ authField O req.uid tag.required f t w = .ok x := by
  have hl := (newHandler_lists U fs tmpl h hh)
  have hmem := (listed_iff U (fun t => t.auth) fs (content fs tmpl) obj hl.1 j f t x hx tag ht).1 hau
  rw [← hl.2.2.2.2] at hmem
  rcases hr with ⟨ha, _⟩ | ⟨a, ha, hm⟩
  · rw [ha] at hmem; cases hmem
  · rw [ha] at hmem
    simp only [Option.toList_some, List.mem_singleton] at hmem
    subst hmem
    obtain ⟨⟨f', t', x', y', h1, h2, h3⟩, _⟩ := modField_ok _ fs j v2 obj hm
    obtain ⟨rfl, rfl⟩ := at_inj (v := obj) (j := j) h3 hx
    obtain ⟨_, rfl⟩ := getField_inj h3 hx
    exact ⟨x', h1, h2⟩

/-! ### sending -/

theorem send_keys (O : Order) (fs : Fields) (obj : FVals X fs) : ∀ (l : List HField) (d0 d : List (Str × Node X)), send O fs obj l d0 = .ok d →
    (SortedKeys d0 → SortedKeys d) ∧
    (∀ k, lookupKey k d = none ↔ lookupKey k d0 = none ∧ ∀ a ∈ l, a.tag.name ≠ k) ∧
    (∀ k n, lookupKey k d = some n → (lookupKey k d0 = some n ∧ ∀ a ∈ l, a.tag.name ≠ k) ∨
      ∃ l1 a l2 f t x, l = l1 ++ a :: l2 ∧ a.tag.name = k ∧ (∀ b ∈ l2, b.tag.name ≠ k) ∧ At obj a.i f t x ∧ f.exported = true ∧ marshal O t x = .ok n)
  | [], d0, d, h => by
    injection h with h; subst h
    exact ⟨id, fun k => by simp, fun k n h => .inl ⟨h, by simp⟩⟩
  | a :: l, d0, d, h => by
    simp only [send] at h
    split at h
    · cases h
    · rename_i info t x hg
      obtain ⟨n, hn, hs⟩ := bind_ok h
      obtain ⟨h1, h2, h3⟩ := send_keys O fs obj l _ d hs
      have hm : info.exported = true ∧ marshal O t x = .ok n := by
        unfold marshalField at hn
        split at hn
        · rename_i he; exact ⟨he, hn⟩
        · cases hn
      refine ⟨fun hd => h1 (sorted_insertKey _ _ _ hd), fun k => ?_, fun k m hk => ?_⟩
      · rw [h2, lookup_insertKey]
        by_cases hk : k = a.tag.name
        · subst hk; simp
        · simp only [if_neg hk, List.mem_cons, forall_eq_or_imp]
          constructor
          · rintro ⟨p, q⟩; exact ⟨p, fun h => hk h.symm, q⟩
          · rintro ⟨p, _, q⟩; exact ⟨p, q⟩
      · rcases h3 k m hk with ⟨p, q⟩ | ⟨l1, b, l2, f, t', x', e, p⟩
        · rw [lookup_insertKey] at p
          by_cases hka : k = a.tag.name
          · rw [if_pos hka] at p
            injection p with p
            subst p
            exact .inr ⟨[], a, l, info, t, x, rfl, hka.symm, q, hg, hm⟩
          · rw [if_neg hka] at p
            refine .inl ⟨p, fun b hb => ?_⟩
            rcases List.mem_cons.1 hb with rfl | hb
            · exact fun h => hka h.symm
            · exact q b hb
        · exact .inr ⟨a :: l1, b, l2, f, t', x', by rw [e]; rfl, p⟩

theorem send_congr (O : Order) (fs : Fields) (obj obj' : FVals X fs) : ∀ (l : List HField) (d : List (Str × Node X)),
    (∀ a ∈ l, getField fs a.i obj = getField fs a.i obj') → send O fs obj l d = send O fs obj' l d
  | [], _, _ => rfl
  | a :: l, d, h => by
    simp only [send]
    rw [h a (List.mem_cons_self ..)]
    split
    · rfl
    · congr 1
      funext n
      exact send_congr O fs obj obj' l _ fun b hb => h b (List.mem_cons_of_mem _ hb)

/-- Sending works if every field listed can be marshalled. -/
theorem send_succeeds (O : Order) (fs : Fields) (obj : FVals X fs) : ∀ (l : List HField) (d : List (Str × Node X)),
    (∀ a ∈ l, ∃ f t x n, At obj a.i f t x ∧ f.exported = true ∧ marshal O t x = .ok n) → ∃ d', send O fs obj l d = .ok d'
  | [], d, _ => ⟨d, rfl⟩
  | a :: l, d, h => by
    obtain ⟨f, t, x, n, h1, h2, h3⟩ := h a (List.mem_cons_self ..)
    obtain ⟨d', hd⟩ := send_succeeds O fs obj l (insertKey a.tag.name n d) fun b hb => h b (List.mem_cons_of_mem _ hb)
    refine ⟨d', ?_⟩
    unfold At at h1
    simp only [send, h1, marshalField, h2, h3, if_true, Res.bind]
    exact hd

/-! ### successful calls -/

theorem recvInit_succeeds (fs : Fields) (now : FVals X fs) : ∀ (l : List Nat) (v : FVals X fs),
    (∀ j ∈ l, ∃ f t x, At now j f t x ∧ f.exported = true) → ∃ w, recvInit fs now l v = .ok w
  | [], v, _ => ⟨v, rfl⟩
  | i :: l, v, h => by
    obtain ⟨f, t, x, h1, h2⟩ := h i (List.mem_cons_self ..)
    obtain ⟨u, hu⟩ := copyField_succeeds fs i now v f t x h1 h2
    obtain ⟨w, hw⟩ := recvInit_succeeds fs now l u fun j hj => h j (List.mem_cons_of_mem _ hj)
    exact ⟨w, by simp only [recvInit, hu, Res.bind]; exact hw⟩

theorem clientRecv_succeeds (O : Order) (fs : Fields) (data : List (Str × Node X)) : ∀ (l : List HField) (v : FVals X fs), (l.Pairwise fun a b => a.i ≠ b.i) →
    (∀ a ∈ l, ∃ f t x y, At v a.i f t x ∧ unmarshalField O data a.tag.name f t x = .ok y) → ∃ w, clientRecv O fs data l v = .ok w
  | [], v, _, _ => ⟨v, rfl⟩
  | a :: l, v, hp, h => by
    rw [List.pairwise_cons] at hp
    obtain ⟨f, t, x, y, h1, h2⟩ := h a (List.mem_cons_self ..)
    obtain ⟨u, hu⟩ := modField_succeeds (unmarshalField O data a.tag.name) fs a.i v f t x y h1 h2
    obtain ⟨_, hne⟩ := modField_ok _ fs a.i v u hu
    obtain ⟨w, hw⟩ := clientRecv_succeeds O fs data l u hp.2 fun b hb => by
      obtain ⟨f, t, x, y, h3, h4⟩ := h b (List.mem_cons_of_mem _ hb)
      exact ⟨f, t, x, y, (hne b.i (hp.1 b hb).symm).trans h3, h4⟩
    exact ⟨w, by simp only [clientRecv, hu, Res.bind]; exact hw⟩

theorem recvIns_succeeds (O : Order) (fs : Fields) (data : List (Str × Node X)) : ∀ (l : List HField) (v : FVals X fs), (l.Pairwise fun a b => a.i ≠ b.i) →
    (∀ a ∈ l, ∃ f t x y, At v a.i f t x ∧ unmarshalField O data a.tag.name f t x = .ok y ∧ (a.tag.required = true → y ≠ zero X t)) →
    ∃ w, recvIns O fs data l v = .ok w
  | [], v, _, _ => ⟨v, rfl⟩
  | a :: l, v, hp, h => by
    rw [List.pairwise_cons] at hp
    obtain ⟨f, t, x, y, h1, h2, h3⟩ := h a (List.mem_cons_self ..)
    obtain ⟨u, hu⟩ := modField_succeeds (unmarshalField O data a.tag.name) fs a.i v f t x y h1 h2
    obtain ⟨⟨f', t', x', y', g1, g2, g3⟩, hne⟩ := modField_ok _ fs a.i v u hu
    obtain ⟨w, hw⟩ := recvIns_succeeds O fs data l u hp.2 fun b hb => by
      obtain ⟨f, t, x, y, h3, h4⟩ := h b (List.mem_cons_of_mem _ hb)
      exact ⟨f, t, x, y, (hne b.i (hp.1 b hb).symm).trans h3, h4⟩
    refine ⟨w, ?_⟩
    rw [recvIns_cons, hu]
    simp only [Res.bind]
    rw [if_neg]
    · exact hw
    · intro hc
      simp only [Bool.and_eq_true] at hc
      obtain ⟨hr, hz⟩ := hc
      unfold fieldZero at hz
      simp only [g3] at hz
      obtain ⟨rfl, rfl⟩ := at_inj (v := v) (j := a.i) g1 h1
      obtain ⟨_, rfl⟩ := getField_inj g1 h1
      rw [h2] at g2
      injection g2 with g2
      subst g2
      exact h3 hr ((isZero_iff _ _).1 hz)

theorem mapDepth_le (m : List (Str × Node X)) (k : Nat) (h : ∀ e ∈ m, e.2.depth ≤ k) : Node.mapDepth m ≤ k := by
  induction m with
  | nil => simp [Node.mapDepth]
  | cons e m ih =>
    obtain ⟨s, n⟩ := e
    have h1 := h (s, n) (List.mem_cons_self ..)
    have h2 := ih fun e he => h e (List.mem_cons_of_mem _ he)
    simp only [Node.mapDepth]
    simp only at h1
    omega

theorem lookup_mapNorm (k : Str) (m : List (Str × Node X)) : lookupKey k (Node.mapNorm m) = (lookupKey k m).map Node.norm := by
  induction m with
  | nil => rfl
  | cons e m ih =>
    obtain ⟨s, n⟩ := e
    simp only [Node.mapNorm, lookupKey]
    split
    · rfl
    · exact ih

/-- Data that can be encoded arrives as JSON makes it. -/
theorem overJson_ok (hX : Laws X) (d : List (Str × Node X)) (hs : SortedKeys d) (hg : ∀ e ∈ d, Good e.2) (hd : ∀ e ∈ d, e.2.depth < maxDepth) :
    overJson d = .ok (Node.mapNorm d) := by
  have hdep : (Node.map d).depth ≤ maxDepth := by
    have h1 : Node.mapDepth d ≤ maxDepth - 1 := mapDepth_le d (maxDepth - 1) fun e he => by have := hd e he; omega
    have h2 : (0 : Nat) < maxDepth := by decide
    show Node.mapDepth d + 1 ≤ maxDepth
    omega
  obtain ⟨hwf, he⟩ := good_map d hs hg
  have henc : encode (.map d) = .ok (Node.map d).text := by unfold encode; rw [if_pos (he hdep)]
  have hdec := C39_round_trip hX (.map d) hwf _ henc hdep
  obtain ⟨c, r, ht, _⟩ := text_head hX (.map d) (he hdep)
  have hne : (Node.map d).text ≠ [] := by rw [ht]; simp
  unfold overJson
  rw [henc]
  unfold readFrom
  simp only [if_neg hne, hdec, Node.norm]

/-- Fields listed under distinct names cross the wire. -/
theorem cross (hX : Laws X) (U : Str → Option Str) (p : ATag → Bool) (O O' : Order) (fs : Fields) (v obj : FVals X fs) (hok : TagsOk U fs)
    (hex : ∀ f ∈ fs.infos, f.exported = true)
    (hdist : ∀ (i j : Nat) (f g : FieldInfo) (t u : Ty) (x : Val X t) (y : Val X u) (tag tag' : ATag), At obj i f t x → At obj j g u y → parseTags U f = some tag →
      parseTags U g = some tag' → p tag = true → p tag' = true → tag.name = tag'.name → i = j)
    (hf : ∀ (j : Nat) (f : FieldInfo) (t : Ty) (x : Val X t) (tag : ATag), At obj j f t x → parseTags U f = some tag → p tag = true →
      Faithful true t x ∧ ∀ n, marshal O t x = .ok n → n.depth < maxDepth) :
    ∃ d d', send O fs obj (collect U (fun t _ => p t) fs v 0) [] = .ok d ∧ overJson d = .ok d' ∧
      ∀ (j : Nat) (f : FieldInfo) (t : Ty) (x : Val X t) (tag : ATag), At obj j f t x → parseTags U f = some tag → p tag = true →
        unmarshalField O' d' tag.name f t (zero X t) = .ok x := by
  have hexAt : ∀ (fs : Fields) (obj : FVals X fs) (j : Nat) (f : FieldInfo) (t : Ty) (x : Val X t), getField fs j obj = some (f, ⟨t, x⟩) → f ∈ fs.infos := by
    intro fs
    induction fs using Fields.rec (motive_1 := fun _ => True) with
    | nil => intro obj j f t x h; cases h
    | cons g u fs _ ih =>
      intro obj j f t x h
      obtain ⟨y, ys⟩ := obj
      cases j with
      | zero => simp only [getField, Option.some.injEq, Prod.mk.injEq] at h; rw [← h.1]; exact List.mem_cons_self ..
      | succ j => exact List.mem_cons_of_mem _ (ih ys j f t x h)
    | _ => trivial
  have hmarsh : ∀ (j : Nat) (f : FieldInfo) (t : Ty) (x : Val X t) (tag : ATag), At obj j f t x → parseTags U f = some tag → p tag = true →
      ∃ n, marshal O t x = .ok n ∧ Good n ∧ n.depth < maxDepth ∧ unmarshal (encH X) O' t n.norm (zero X t) = .done x := by
    intro j f t x tag h1 h2 h3
    obtain ⟨hfa, hde⟩ := hf j f t x tag h1 h2 h3
    obtain ⟨n, hm, hu⟩ := round hX true O O' (encH X) t x hfa
    exact ⟨n, hm, marshal_good hX O t x n hfa hm, hde n hm, hu⟩
  have hl : ∀ a ∈ collect U (fun t _ => p t) fs v 0, ∃ f t x, At obj a.i f t x ∧ parseTags U f = some a.tag ∧ p a.tag = true := by
    intro a ha
    obtain ⟨f, t, x, h1, h2⟩ := listed_at U _ fs v obj a ha
    exact ⟨f, t, x, h1, h2, ((listed_iff U p fs v obj hok a.i f t x h1 a.tag h2).2 a ha rfl).2⟩
  obtain ⟨d, hd⟩ := send_succeeds O fs obj (collect U (fun t _ => p t) fs v 0) [] fun a ha => by
    obtain ⟨f, t, x, h1, h2, h3⟩ := hl a ha
    obtain ⟨n, hm, _⟩ := hmarsh a.i f t x a.tag h1 h2 h3
    exact ⟨f, t, x, n, h1, hex f (hexAt fs obj _ f t x h1), hm⟩
  obtain ⟨k1, k2, k3⟩ := send_keys O fs obj _ [] d hd
  have hsorted := k1 (by simp [SortedKeys])
  have hentry : ∀ k n, lookupKey k d = some n → ∃ a f t x, a ∈ collect U (fun t _ => p t) fs v 0 ∧ a.tag.name = k ∧ At obj a.i f t x ∧ marshal O t x = .ok n := by
    intro k n hk
    rcases k3 k n hk with ⟨h, _⟩ | ⟨l1, a, l2, f, t, x, e, h1, _, h3, _, h5⟩
    · simp [lookupKey] at h
    · exact ⟨a, f, t, x, by rw [e]; simp, h1, h3, h5⟩
  have hgood : ∀ e ∈ d, Good e.2 ∧ e.2.depth < maxDepth := by
    rintro ⟨k, n⟩ he
    obtain ⟨a, f, t, x, h1, _, h3, h4⟩ := hentry k n (lookup_of_mem hsorted he)
    obtain ⟨f', t', x', g1, g2, g3⟩ := hl a h1
    obtain ⟨rfl, rfl⟩ := at_inj g1 h3
    obtain ⟨_, rfl⟩ := getField_inj g1 h3
    obtain ⟨n', hm, hg, hde, _⟩ := hmarsh a.i f' t' x' a.tag g1 g2 g3
    rw [h4] at hm
    injection hm with hm
    subst hm
    exact ⟨hg, hde⟩
  refine ⟨d, Node.mapNorm d, hd, overJson_ok hX d hsorted (fun e he => (hgood e he).1) (fun e he => (hgood e he).2), ?_⟩
  intro j f t x tag h1 h2 h3
  have hmem := (listed_iff U p fs v obj hok j f t x h1 tag h2).1 h3
  obtain ⟨n, hn⟩ : ∃ n, lookupKey tag.name d = some n := by
    cases hk : lookupKey tag.name d with
    | some n => exact ⟨n, rfl⟩
    | none => exact absurd rfl (((k2 _).1 hk).2 _ hmem)
  obtain ⟨a, f', t', x', g1, g2, g3, g4⟩ := hentry _ n hn
  obtain ⟨f'', t'', x'', q1, q2, q3⟩ := hl a g1
  have hij := hdist a.i j f'' f t'' t x'' x a.tag tag q1 h1 q2 h2 q3 h3 g2
  rw [hij] at g3
  obtain ⟨rfl, rfl⟩ := at_inj g3 h1
  obtain ⟨_, rfl⟩ := getField_inj g3 h1
  obtain ⟨n', hm, _, _, hu⟩ := hmarsh j f' t' x' tag h1 h2 h3
  rw [g4] at hm
  injection hm with hm
  subst hm
  unfold unmarshalField
  rw [lookup_mapNorm, hn]
  simp only [Option.map_some, hex f' (hexAt fs obj j f' t' x' h1), if_true, hu]
  rfl

end Verif.Api

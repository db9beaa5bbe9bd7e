import Verif.Enc.SafetySpec
import Verif.Enc.DecodeLemmas
/-!
# Lemmas on panics and iteration order
-/
set_option autoImplicit false
namespace Verif.Enc
open Verif.Strconv
variable {X : Ext}

theorem bind_no_panic {α β : Type} {r : Res α} {f : α → Res β} (h1 : r ≠ .panic) (h2 : ∀ a, r = .ok a → f a ≠ .panic) : r.bind f ≠ .panic := by
  cases r with
  | ok a => exact h2 a rfl
  | err => simp [Res.bind]
  | panic => exact absurd rfl h1

theorem mapRes_no_panic {α β : Type} (f : α → Res β) (l : List α) (h : ∀ x ∈ l, f x ≠ .panic) : mapRes f l ≠ .panic := by
  induction l with
  | nil => simp [mapRes]
  | cons a l ih =>
    simp only [mapRes]
    exact bind_no_panic (h a (by simp)) fun _ _ => bind_no_panic (ih fun x hx => h x (by simp [hx])) fun _ _ => by simp

mutual
theorem marshal_no_panic (O : Order) : ∀ (t : Ty) (v : Val X t), t.marshalSafe = true → marshal O t v ≠ .panic
  | .bool, _, _ => by simp [marshal]
  | .int _, _, _ => by simp [marshal]
  | .uint _, _, _ => by simp [marshal]
  | .float64, _, _ => by simp [marshal]
  | .float32, _, _ => by simp [marshal]
  | .string, _, _ => by simp [marshal]
  | .any, _, _ => by simp [marshal]
  | .node, _, h => by cases h
  | .time, _, _ => by simp [marshal]
  | .encTime, _, _ => by simp [marshal]
  | .encDur, _, _ => by simp [marshal]
  | .func, _, _ => by simp [marshal]
  | .chan, _, h => by cases h
  | .iface, _, _ => by simp [marshal]
  | .ptr t, v, h => by
    simp only [Ty.marshalSafe, Bool.and_eq_true, Bool.not_eq_true'] at h
    match v with
    | none => simp [marshal, h.1]
    | some x =>
      simp only [marshal]
      have ih := marshal_no_panic O t x h.2
      unfold ptrFix
      split
      · rw [show Ty.valueMarshaler .time = true from rfl] at h; simp at h
      · exact ih
  | .slice t, v, h => by
    match v with
    | none => simp [marshal]
    | some l =>
      simp only [marshal]
      exact bind_no_panic (mapRes_no_panic _ _ fun x _ => marshal_no_panic O t x h) fun _ _ => by simp
  | .array k t, v, h => by
    simp only [marshal]
    exact bind_no_panic (mapRes_no_panic _ _ fun x _ => marshal_no_panic O t x h) fun _ _ => by simp
  | .map k t, v, h => by
    match v with
    | none => simp [marshal]
    | some m =>
      simp only [marshal]
      refine bind_no_panic (mapRes_no_panic _ _ fun x _ => bind_no_panic (marshal_no_panic O t x.2 h) fun _ _ => ?_) fun _ _ => by simp
      split <;> simp
  | .struct fs, v, h => by
    simp only [marshal]
    exact bind_no_panic (marshalFields_no_panic O fs v h) fun _ _ => by simp
theorem marshalFields_no_panic (O : Order) : ∀ (fs : Fields) (v : FVals X fs), fs.marshalSafe = true → marshalFields O fs v ≠ .panic
  | .nil, _, _ => by simp [marshalFields]
  | .cons f t fs, (v, vs), h => by
    simp only [Fields.marshalSafe, Bool.and_eq_true, Bool.or_eq_true, Bool.not_eq_true'] at h
    have ih := marshalFields_no_panic O fs vs h.2
    simp only [marshalFields]
    split
    · rename_i hx
      rcases h.1 with h1 | ⟨h1, h2⟩
      · rw [hx] at h1; cases h1
      · cases ht : parseTag f with
        | none => rw [ht] at h1; cases h1
        | some tag =>
          simp only
          split
          · exact ih
          · exact bind_no_panic (marshal_no_panic O t v h2) fun _ _ => bind_no_panic ih fun _ _ => by simp
    · exact ih
end

/-! ### unmarshalling plain nodes -/

mutual
theorem noPanics : ∀ (n : Node X), n.encodable = true → n.jsonPanics = false
  | .nil, _ | .bool _, _ | .str _, _ | .int _, _ | .float _, _ | .digits _, _ | .time _, _ | .dur _, _ => by rfl
  | .list l, h => listNoPanics l h
  | .map m, h => by
    simp only [Node.encodable, Bool.and_eq_true] at h
    exact mapNoPanics m h.1
  | .pairs l, h => by
    simp only [Node.encodable, Bool.and_eq_true] at h
    simp only [Node.jsonPanics, h.1]; rfl
theorem listNoPanics : ∀ (l : List (Node X)), Node.listEncodable l = true → Node.listPanics l = false
  | [], _ => rfl
  | n :: l, h => by
    simp only [Node.listEncodable, Bool.and_eq_true] at h
    simp only [Node.listPanics, h.1, if_true]
    exact listNoPanics l h.2
theorem mapNoPanics : ∀ (l : List (Str × Node X)), Node.mapEncodable l = true → Node.mapPanics l = false
  | [], _ => rfl
  | (_, n) :: l, h => by
    simp only [Node.mapEncodable, Bool.and_eq_true] at h
    simp only [Node.mapPanics, h.1, if_true]
    exact mapNoPanics l h.2
end

/-- Plain and encodable, as decoded nodes are. -/
def Clean (n : Node X) : Prop := n.plain = true ∧ n.encodable = true

theorem list_clean (l : List (Node X)) (h1 : Node.listPlain l = true) (h2 : Node.listEncodable l = true) : ∀ n ∈ l, Clean n := by
  induction l with
  | nil => simp
  | cons n l ih =>
    simp only [Node.listPlain, Node.listEncodable, Bool.and_eq_true] at h1 h2
    intro m hm
    rcases List.mem_cons.1 hm with rfl | hm
    · exact ⟨h1.1, h2.1⟩
    · exact ih h1.2 h2.2 m hm

theorem map_clean (l : List (Str × Node X)) (h1 : Node.mapPlain l = true) (h2 : Node.mapEncodable l = true) : ∀ e ∈ l, Clean e.2 := by
  induction l with
  | nil => simp
  | cons e l ih =>
    obtain ⟨k, n⟩ := e
    simp only [Node.mapPlain, Node.mapEncodable, Bool.and_eq_true] at h1 h2
    intro m hm
    rcases List.mem_cons.1 hm with rfl | hm
    · exact ⟨h1.1, h2.1⟩
    · exact ih h1.2 h2.2 m hm

theorem clean_list (l : List (Node X)) (h : Clean (.list l)) : ∀ n ∈ l, Clean n := list_clean l h.1 h.2

theorem clean_map (l : List (Str × Node X)) (h : Clean (.map l)) : ∀ e ∈ l, Clean e.2 :=
  map_clean l h.1 (by have := h.2; simp only [Node.encodable, Bool.and_eq_true] at this; exact this.1)

theorem uElems_st {α : Type} (f : Node X → Out X α) (l : List (Node X)) (h : ∀ n ∈ l, (f n).st ≠ .panic) : (uElems f l).st ≠ .panic := by
  induction l with
  | nil => simp [uElems, Out.done]
  | cons n l ih =>
    have h1 := h n (by simp)
    have ih := ih fun x hx => h x (by simp [hx])
    simp only [uElems]
    cases hs : (f n).st with
    | ok => exact ih
    | err => simp
    | panic => exact absurd hs h1

theorem uEntries_st {α : Type} (k : KTy) (f : Node X → Out X α) (l : List (Str × Node X)) (acc : List (Str × α)) (h : ∀ e ∈ l, (f e.2).st ≠ .panic) :
    (uEntries k f l acc).st ≠ .panic := by
  induction l generalizing acc with
  | nil => simp [uEntries, Out.done]
  | cons e l ih =>
    have h1 := h e (by simp)
    obtain ⟨key, n⟩ := e
    have ih := fun acc => ih acc fun x hx => h x (by simp [hx])
    simp only [uEntries]
    split
    · simp
    · cases hs : (f n).st with
      | ok => exact ih _
      | err => simp
      | panic => exact absurd hs h1

theorem assign_st {α β : Type} (r : Out X α) (f : α → β) (old : β) : (r.assign f old).st = r.st := by
  unfold Out.assign; cases r.st <;> rfl

theorem assign_no_panic {α β : Type} (r : Out X α) (f : α → β) (old : β) (h : r.st ≠ .panic) : (r.assign f old).st ≠ .panic := by
  rw [assign_st]; exact h

theorem reportAll_st (cb : Str → Node X → Bool) (l : List (Str × Node X)) : (reportAll cb l).1 ≠ .panic := by
  induction l with
  | nil => simp [reportAll]
  | cons e l ih =>
    obtain ⟨k, n⟩ := e
    simp only [reportAll]
    split
    · simp
    · exact ih

theorem uStruct_st (H : Handler X) (O : Order) (fs : Fields) (m : List (Str × Node X)) (r : Out X (FVals X fs)) (h : r.st ≠ .panic) :
    (uStruct H O fs m r).st ≠ .panic := by
  unfold uStruct
  cases hs : r.st with
  | ok =>
    simp only [report]
    split
    · simp
    · exact reportAll_st _ _
  | err => simp
  | panic => exact absurd hs h

theorem numOut_st {α : Type} (n : Node X) (r : Option α) (old z : α) (h : n.plain = true) : (numOut n r old z).st ≠ .panic := by
  cases n <;> cases r <;> simp [numOut, Out.done, Out.mk', Node.plain] at h ⊢

theorem uTime_st (n : Node X) (old : X.T) (h : Clean n) : (uTime n old).st ≠ .panic := by
  unfold uTime
  rw [if_pos h.2]
  split
  · simp [Out.done]
  · split <;> simp [Out.done, Out.mk']

mutual
theorem unmarshal_no_panic (H : Handler X) (O : Order) : ∀ (t : Ty) (n : Node X) (old : Val X t), t.unmarshalSafe = true → Clean n →
    (unmarshal H O t n old).st ≠ .panic
  | .bool, n, old, _, _ => by
    show (uBool n old).st ≠ .panic
    cases n <;> simp [uBool, Out.done, Out.mk']
  | .int w, n, old, _, hn => numOut_st (α := BitVec w.bits) n _ _ _ hn.1
  | .uint w, n, old, _, hn => numOut_st (α := BitVec w.bits) n _ _ _ hn.1
  | .float64, n, old, _, hn => numOut_st (α := X.F) n _ _ _ hn.1
  | .float32, n, old, _, hn => numOut_st (α := X.F) n _ _ _ hn.1
  | .string, n, old, _, hn => by
    show (uString n old).st ≠ .panic
    unfold uString
    split
    · simp [Out.done]
    · exact numOut_st _ _ _ _ hn.1
  | .any, n, old, _, _ => by show Status.ok ≠ .panic; simp
  | .node, n, old, _, _ => by show Status.ok ≠ .panic; simp
  | .time, n, old, _, hn => uTime_st n old hn
  | .encTime, n, old, _, hn => by
    show (uEncTime n old).st ≠ .panic
    unfold uEncTime
    split <;> simp [Out.done, Out.mk', noPanics n hn.2]
  | .encDur, n, old, _, hn => by
    show (uEncDur n old).st ≠ .panic
    unfold uEncDur
    split
    · simp [Out.done]
    · split <;> simp [Out.done, Out.mk', noPanics n hn.2]
  | .func, n, old, _, _ => by
    show (uOpaque n old).st ≠ .panic
    cases n <;> simp [uOpaque, Out.done, Out.mk']
  | .chan, n, old, _, _ => by
    show (uOpaque n old).st ≠ .panic
    cases n <;> simp [uOpaque, Out.done, Out.mk']
  | .iface, _, _, h, _ => by cases h
  | .ptr t, n, old, h, hn => by
    have ih := unmarshal_no_panic H O t n (zero X t) h hn
    show (uPtr (fun n => unmarshal H O t n (zero X t)) n).st ≠ .panic
    unfold uPtr
    split
    · simp [Out.done]
    · exact ih
  | .slice t, n, old, h, hn => by
    have ih := fun m (hm : Clean m) => unmarshal_no_panic H O t m (zero X t) h hm
    show (uSlice (fun n => unmarshal H O t n (zero X t)) n old).st ≠ .panic
    unfold uSlice
    split
    · simp [Out.done]
    · exact assign_no_panic _ _ _ <| uElems_st _ _ fun m hm => ih m (clean_list _ hn m hm)
    · simp [Out.mk']
  | .array k t, n, old, h, hn => by
    have ih := fun m (hm : Clean m) => unmarshal_no_panic H O t m (zero X t) h hm
    show (uArray k (fun n => unmarshal H O t n (zero X t)) n (zero X (.array k t)) old).st ≠ .panic
    unfold uArray
    split
    · simp [Out.done]
    · split
      · exact assign_no_panic _ _ _ <| uElems_st _ _ fun m hm => ih m (clean_list _ hn m hm)
      · simp [Out.mk']
    · simp [Out.mk']
  | .map k t, n, old, h, hn => by
    have ih := fun m (hm : Clean m) => unmarshal_no_panic H O t m (zero X t) h hm
    show (uMap O k (fun n => unmarshal H O t n (zero X t)) n old).st ≠ .panic
    unfold uMap
    split
    · simp [Out.done]
    · exact assign_no_panic _ _ _ <| uEntries_st _ _ _ _ fun m hm => ih m.2 (clean_map _ hn m ((O.isPerm _).mem_iff.1 hm))
    · exact absurd hn.1 (by simp [Node.plain])
    · simp [Out.mk']
  | .struct fs, n, old, h, hn => by
    have ih := fun m (hm : ∀ e ∈ m, Clean e.2) => uFields_no_panic H O fs m old h hm
    show (uObject H O fs (fun m => uFields H O fs m old) n old).st ≠ .panic
    unfold uObject
    split
    · simp [Out.done]
    · exact uStruct_st _ _ _ _ _ (ih _ (clean_map _ hn))
    · exact absurd hn.1 (by simp [Node.plain])
    · simp [Out.mk']
theorem uFields_no_panic (H : Handler X) (O : Order) : ∀ (fs : Fields) (m : List (Str × Node X)) (old : FVals X fs), fs.unmarshalSafe = true →
    (∀ e ∈ m, Clean e.2) → (uFields H O fs m old).st ≠ .panic
  | .nil, _, _, _, _ => by simp [uFields, Out.done]
  | .cons f t fs, m, (v, vs), h, hm => by
    simp only [Fields.unmarshalSafe, Bool.and_eq_true, Bool.or_eq_true, Bool.not_eq_true'] at h
    have ih := uFields_no_panic H O fs m vs h.2 hm
    simp only [uFields]
    split
    · rename_i hx
      rcases h.1 with h1 | ⟨h1, h2⟩
      · rw [hx] at h1; cases h1
      · cases ht : parseTag f with
        | none => rw [ht] at h1; cases h1
        | some tag =>
          simp only
          cases hl : lookupKey tag.json m with
          | none => exact ih
          | some n =>
            have h3 := unmarshal_no_panic H O t n v h2 (hm _ (mem_of_lookup hl))
            simp only
            cases hs : (unmarshal H O t n v).st with
            | ok => exact ih
            | err => simp
            | panic => exact absurd hs h3
    · exact ih
end

/-! ### iteration order -/

theorem mapRes_all {α β : Type} (f : α → Res β) (l : List α) (bs : List β) (h : mapRes f l = .ok bs) : ∀ a ∈ l, ∃ b, f a = .ok b := by
  induction l generalizing bs with
  | nil => simp
  | cons a l ih =>
    simp only [mapRes] at h
    obtain ⟨b, hb, h⟩ := bind_ok h
    obtain ⟨bs', hbs, h⟩ := bind_ok h
    intro x hx
    rcases List.mem_cons.1 hx with rfl | hx
    · exact ⟨b, hb⟩
    · exact ih bs' hbs x hx

theorem mapRes_imp {α β : Type} (f g : α → Res β) (l : List α) (bs : List β) (hfg : ∀ a ∈ l, ∀ b, f a = .ok b → g a = .ok b) (h : mapRes f l = .ok bs) :
    mapRes g l = .ok bs := by
  induction l generalizing bs with
  | nil => exact h
  | cons a l ih =>
    simp only [mapRes] at h ⊢
    obtain ⟨b, hb, h⟩ := bind_ok h
    obtain ⟨bs', hbs, h⟩ := bind_ok h
    rw [hfg a (by simp) b hb, ih bs' (fun x hx => hfg x (by simp [hx])) hbs]
    exact h

/-- Building a map from its entries visited in two orders. -/
theorem mapRes_order {α β : Type} (O O' : Order) (f : Str × α → Res (Str × β)) (hkey : ∀ e b, f e = .ok b → b.1 = e.1) (m : List (Str × α)) (hs : SortedKeys m)
    (l : List (Str × β)) (h : mapRes f (O.perm m) = .ok l) : ∃ l', mapRes f (O'.perm m) = .ok l' ∧ ofEntries l' = ofEntries l := by
  have hall := mapRes_all f _ l h
  have hallm : ∀ e ∈ m, ∃ b, f e = .ok b := fun e he => hall e ((O.isPerm m).mem_iff.2 he)
  cases m with
  | nil =>
    have h1 : O.perm ([] : List (Str × α)) = [] := (O.isPerm []).eq_nil
    have h2 : O'.perm ([] : List (Str × α)) = [] := (O'.isPerm []).eq_nil
    rw [h1] at h
    exact ⟨l, by rw [h2]; exact h, rfl⟩
  | cons e0 m0 =>
    obtain ⟨d, _⟩ := hallm e0 (by simp)
    generalize e0 :: m0 = m at *
    have e1 := mapRes_ok d f (O.perm m) hall
    have e2 := mapRes_ok d f (O'.perm m) (fun e he => hallm e ((O'.isPerm m).mem_iff.1 he))
    rw [h] at e1
    injection e1 with e1
    refine ⟨_, e2, ?_⟩
    have hsorted : SortedKeys (m.map fun x => (f x).getD d) := by
      have : m.map (fun x => (f x).getD d) = m.map fun x => (x.1, ((f x).getD d).2) := by
        apply List.map_congr_left
        intro e he
        obtain ⟨b, hb⟩ := hallm e he
        have := hkey e b hb
        rw [hb]; simp only [Res.getD]; rw [← this]
      rw [this]
      exact sorted_map_val _ m hs
    rw [e1, ofEntries_perm _ _ ((O'.isPerm m).map _) hsorted, ofEntries_perm _ _ ((O.isPerm m).map _) hsorted]

mutual
theorem marshal_order (O O' : Order) : ∀ (t : Ty) (v : Val X t) (n : Node X), WFVal t v → marshal O t v = .ok n → marshal O' t v = .ok n
  | .bool, _, _, _, h => h
  | .int _, _, _, _, h => h
  | .uint _, _, _, _, h => h
  | .float64, _, _, _, h => h
  | .float32, _, _, _, h => h
  | .string, _, _, _, h => h
  | .any, _, _, _, h => h
  | .node, v, n, _, h => by
    match v with
    | none => exact h
    | some x => exact h
  | .time, _, _, _, h => h
  | .encTime, _, _, _, h => h
  | .encDur, _, _, _, h => h
  | .func, _, _, _, h => h
  | .chan, _, _, _, h => h
  | .iface, _, _, _, h => h
  | .ptr t, v, n, hv, h => by
    match v, hv with
    | none, _ => exact h
    | some x, hv =>
      simp only [marshal] at h ⊢
      cases hx : marshal O t x with
      | ok m => rw [marshal_order O O' t x m hv hx, ← hx]; exact h
      | err => rw [hx] at h; cases t <;> cases h
      | panic => rw [hx] at h; cases t <;> cases h
  | .slice t, v, n, hv, h => by
    match v, hv with
    | none, _ => exact h
    | some l, hv =>
      have hv : ∀ x ∈ l, WFVal t x := hv
      simp only [marshal] at h ⊢
      obtain ⟨ns, hns, h⟩ := bind_ok h
      rw [mapRes_imp (marshal O t) (marshal O' t) l ns (fun a ha b hb => marshal_order O O' t a b (hv a ha) hb) hns]
      exact h
  | .array k t, v, n, hv, h => by
    obtain ⟨l, hl⟩ := v
    have hv : ∀ x ∈ l, WFVal t x := hv
    simp only [marshal] at h ⊢
    obtain ⟨ns, hns, h⟩ := bind_ok h
    rw [mapRes_imp (marshal O t) (marshal O' t) l ns (fun a ha b hb => marshal_order O O' t a b (hv a ha) hb) hns]
    exact h
  | .map k t, v, n, hv, h => by
    match v, hv with
    | none, _ => exact h
    | some m, hv =>
      obtain ⟨hs, hv⟩ := (hv : SortedKeys m ∧ ∀ e ∈ m, WFVal t e.2)
      simp only [marshal] at h ⊢
      obtain ⟨ns, hns, h⟩ := bind_ok h
      injection h with h; subst h
      have h1 := mapRes_imp _ (fun e => (marshal O' t e.2).bind fun n => if k = .other then .err else .ok (e.1, n)) _ ns (fun e he b hb => by
        obtain ⟨x, hx, hb⟩ := bind_ok hb
        rw [marshal_order O O' t e.2 x (hv e ((O.isPerm m).mem_iff.1 he)) hx]
        exact hb) hns
      obtain ⟨l', hl', he⟩ := mapRes_order O O' _ (by
        intro e b hb
        obtain ⟨x, _, hb⟩ := bind_ok hb
        split at hb
        · cases hb
        · injection hb with hb; subst hb; rfl) m hs ns h1
      rw [hl']
      simp only [Res.bind]
      rw [he]
  | .struct fs, v, n, hv, h => by
    simp only [marshal] at h ⊢
    obtain ⟨l, hl, h⟩ := bind_ok h
    rw [marshalFields_order O O' fs v l hv hl]
    exact h
theorem marshalFields_order (O O' : Order) : ∀ (fs : Fields) (v : FVals X fs) (l : List ((Str × Str) × Node X)), WFVals fs v → marshalFields O fs v = .ok l →
    marshalFields O' fs v = .ok l
  | .nil, _, _, _, h => h
  | .cons f t fs, (v, vs), l, hv, h => by
    obtain ⟨h1, h2⟩ := hv
    simp only [marshalFields] at h ⊢
    split
    · rename_i hx
      rw [if_pos hx] at h
      cases ht : parseTag f with
      | none => rw [ht] at h; cases h
      | some tag =>
        rw [ht] at h
        simp only at h ⊢
        split
        · rename_i hsk
          rw [if_pos hsk] at h
          exact marshalFields_order O O' fs vs l h2 h
        · rename_i hsk
          rw [if_neg hsk] at h
          obtain ⟨n, hn, h⟩ := bind_ok h
          obtain ⟨l', hl', h⟩ := bind_ok h
          rw [marshal_order O O' t v n h1 hn, marshalFields_order O O' fs vs l' h2 hl']
          exact h
    · rename_i hx
      rw [if_neg hx] at h
      exact marshalFields_order O O' fs vs l h2 h
end

/-- Success with one order means success with the same value with the other. -/
def SameOk {α : Type} (r r' : Out X α) : Prop := r.st = .ok → r'.st = .ok ∧ r'.val = r.val

theorem uElems_same {α : Type} (f g : Node X → Out X α) (l : List (Node X)) (h : ∀ n ∈ l, SameOk (f n) (g n)) : SameOk (uElems f l) (uElems g l) := by
  induction l with
  | nil => exact fun _ => ⟨rfl, rfl⟩
  | cons n l ih =>
    have h1 := h n (by simp)
    have ih := ih fun x hx => h x (by simp [hx])
    intro hok
    simp only [uElems] at hok ⊢
    cases hs : (f n).st with
    | ok =>
      rw [hs] at hok
      obtain ⟨h2, h3⟩ := h1 hs
      obtain ⟨h4, h5⟩ := ih hok
      simp only [h2, h3, h4, h5, and_self]
    | err => rw [hs] at hok; cases hok
    | panic => rw [hs] at hok; cases hok

theorem uEntries_str {α : Type} (f : Node X → Out X α) (l : List (Str × Node X)) (acc : List (Str × α)) :
    ((uEntries .str f l acc).st = .ok → ∀ e ∈ l, (f e.2).st = .ok) ∧
    ((∀ e ∈ l, (f e.2).st = .ok) → (uEntries .str f l acc).st = .ok ∧
      (uEntries .str f l acc).val = (l.map fun e => (e.1, (f e.2).val)).foldl (fun m e => insertKey e.1 e.2 m) acc) := by
  induction l generalizing acc with
  | nil => exact ⟨fun _ => by simp, fun _ => ⟨rfl, rfl⟩⟩
  | cons e l ih =>
    obtain ⟨k, n⟩ := e
    simp only [uEntries, normKey]
    have ih := ih (insertKey k (f n).val acc)
    constructor
    · intro hok
      cases hs : (f n).st with
      | ok =>
        rw [hs] at hok
        intro e he
        rcases List.mem_cons.1 he with rfl | he
        · exact hs
        · exact ih.1 hok e he
      | err => rw [hs] at hok; cases hok
      | panic => rw [hs] at hok; cases hok
    · intro hall
      have hs : (f n).st = .ok := hall (k, n) (by simp)
      rw [hs]
      obtain ⟨h1, h2⟩ := ih.2 fun e he => hall e (by simp [he])
      exact ⟨h1, h2⟩

theorem assign_same {α β : Type} (r r' : Out X α) (f : α → β) (old : β) (h : SameOk r r') : SameOk (r.assign f old) (r'.assign f old) := by
  intro hok
  rw [assign_st] at hok
  obtain ⟨h1, h2⟩ := h hok
  unfold Out.assign
  rw [hok, h1]
  simp [h2]

theorem uEntries_same {α : Type} (O O' : Order) (f g : Node X → Out X α) (m : List (Str × Node X)) (hs : SortedKeys m) (h : ∀ e ∈ m, SameOk (f e.2) (g e.2)) :
    SameOk (uEntries .str f (O.perm m) []) (uEntries .str g (O'.perm m) []) := by
  intro hok
  have hf := (uEntries_str f (O.perm m) []).1 hok
  have hfm : ∀ e ∈ m, (f e.2).st = .ok := fun e he => hf e ((O.isPerm m).mem_iff.2 he)
  have hg : ∀ e ∈ O'.perm m, (g e.2).st = .ok := fun e he => (h e ((O'.isPerm m).mem_iff.1 he) (hfm e ((O'.isPerm m).mem_iff.1 he))).1
  obtain ⟨_, h1⟩ := (uEntries_str f (O.perm m) []).2 hf
  obtain ⟨h2, h3⟩ := (uEntries_str g (O'.perm m) []).2 hg
  refine ⟨h2, ?_⟩
  rw [h1, h3]
  show ofEntries _ = ofEntries _
  have hsorted := sorted_map_val (fun e : Str × Node X => (f e.2).val) m hs
  have e1 : ofEntries ((O.perm m).map fun e => (e.1, (f e.2).val)) = m.map fun e => (e.1, (f e.2).val) := ofEntries_perm _ _ ((O.isPerm m).map _) hsorted
  have e2 : ofEntries ((O'.perm m).map fun e => (e.1, (g e.2).val)) = m.map fun e => (e.1, (f e.2).val) := by
    have : (O'.perm m).map (fun e => (e.1, (g e.2).val)) = (O'.perm m).map (fun e => (e.1, (f e.2).val)) := by
      apply List.map_congr_left
      intro e he
      have he := (O'.isPerm m).mem_iff.1 he
      rw [(h e he (hfm e he)).2]
    rw [this]
    exact ofEntries_perm _ _ ((O'.isPerm m).map _) hsorted
  rw [e1, e2]

theorem reportAll_ok_iff (cb : Str → Node X → Bool) (l : List (Str × Node X)) : (reportAll cb l).1 = .ok ↔ ∀ e ∈ l, cb e.1 e.2 = false := by
  induction l with
  | nil => simp [reportAll]
  | cons e l ih =>
    obtain ⟨k, n⟩ := e
    simp only [reportAll]
    split
    · rename_i h; simp [h]
    · rename_i h; simp [ih, h]

theorem uStruct_same (H : Handler X) (O O' : Order) (fs : Fields) (m : List (Str × Node X)) (r r' : Out X (FVals X fs)) (h : SameOk r r') :
    SameOk (uStruct H O fs m r) (uStruct H O' fs m r') := by
  intro hok
  cases hs : r.st with
  | ok =>
    obtain ⟨h1, h2⟩ := h hs
    unfold uStruct at hok ⊢
    rw [hs] at hok
    rw [hs, h1]
    simp only at hok ⊢
    refine ⟨?_, h2⟩
    unfold report at hok ⊢
    cases hc : H.unhandled with
    | none => rfl
    | some cb =>
      rw [hc] at hok
      simp only at hok ⊢
      rw [reportAll_ok_iff] at hok ⊢
      intro e he
      refine hok e ?_
      unfold unknown at he ⊢
      rw [List.mem_filter] at he ⊢
      exact ⟨(O.isPerm m).mem_iff.2 ((O'.isPerm m).mem_iff.1 he.1), he.2⟩
  | err => unfold uStruct at hok; rw [hs] at hok; cases hok
  | panic => unfold uStruct at hok; rw [hs] at hok; cases hok

theorem listWF_mem (l : List (Node X)) (h : Node.listWF l) : ∀ n ∈ l, n.WF := by
  induction l with
  | nil => simp
  | cons n l ih =>
    intro m hm
    rcases List.mem_cons.1 hm with rfl | hm
    · exact h.1
    · exact ih h.2 m hm

theorem mapWF_mem (l : List (Str × Node X)) (h : Node.mapWF l) : ∀ e ∈ l, e.2.WF := by
  induction l with
  | nil => simp
  | cons e l ih =>
    obtain ⟨k, n⟩ := e
    intro m hm
    rcases List.mem_cons.1 hm with rfl | hm
    · exact h.1
    · exact ih h.2 m hm

theorem pairsWF_mem (l : List ((Str × Str) × Node X)) (h : Node.pairsWF l) : ∀ e ∈ l, e.2.WF := by
  induction l with
  | nil => simp
  | cons e l ih =>
    obtain ⟨k, n⟩ := e
    intro m hm
    rcases List.mem_cons.1 hm with rfl | hm
    · exact h.1
    · exact ih h.2 m hm

theorem asMap_mem (l : List ((Str × Str) × Node X)) (h : Node.pairsWF l) : ∀ e ∈ asMap l, e.2.WF := by
  intro e he
  have := mem_ofEntries _ e he
  obtain ⟨p, hp, rfl⟩ := List.mem_map.1 this
  exact pairsWF_mem l h p hp

theorem same_refl {α : Type} (r : Out X α) : SameOk r r := fun h => ⟨h, rfl⟩

mutual
theorem unmarshal_order (H : Handler X) (O O' : Order) : ∀ (t : Ty) (n : Node X) (old : Val X t), t.strKeys = true → n.WF →
    SameOk (unmarshal H O t n old) (unmarshal H O' t n old)
  | .bool, _, _, _, _ => same_refl _
  | .int _, _, _, _, _ => same_refl _
  | .uint _, _, _, _, _ => same_refl _
  | .float64, _, _, _, _ => same_refl _
  | .float32, _, _, _, _ => same_refl _
  | .string, _, _, _, _ => same_refl _
  | .any, _, _, _, _ => same_refl _
  | .node, _, _, _, _ => same_refl _
  | .time, _, _, _, _ => same_refl _
  | .encTime, _, _, _, _ => same_refl _
  | .encDur, _, _, _, _ => same_refl _
  | .func, _, _, _, _ => same_refl _
  | .chan, _, _, _, _ => same_refl _
  | .iface, _, _, _, _ => same_refl _
  | .ptr t, n, old, h, hn => by
    have ih := unmarshal_order H O O' t n (zero X t) h hn
    show SameOk (uPtr (fun n => unmarshal H O t n (zero X t)) n) (uPtr (fun n => unmarshal H O' t n (zero X t)) n)
    unfold uPtr
    split
    · exact same_refl _
    · intro hok
      obtain ⟨h1, h2⟩ := ih hok
      exact ⟨h1, by simp only; rw [h2]⟩
  | .slice t, n, old, h, hn => by
    have ih := fun m (hm : m.WF) => unmarshal_order H O O' t m (zero X t) h hm
    show SameOk (uSlice (fun n => unmarshal H O t n (zero X t)) n old) (uSlice (fun n => unmarshal H O' t n (zero X t)) n old)
    unfold uSlice
    split
    · exact same_refl _
    · exact assign_same _ _ _ _ (uElems_same _ _ _ fun m hm => ih m (listWF_mem _ hn m hm))
    · exact same_refl _
  | .array k t, n, old, h, hn => by
    have ih := fun m (hm : m.WF) => unmarshal_order H O O' t m (zero X t) h hm
    show SameOk (uArray k (fun n => unmarshal H O t n (zero X t)) n (zero X (.array k t)) old) (uArray k (fun n => unmarshal H O' t n (zero X t)) n (zero X (.array k t)) old)
    unfold uArray
    split
    · exact same_refl _
    · split
      · exact assign_same _ _ _ _ (uElems_same _ _ _ fun m hm => ih m (listWF_mem _ hn m hm))
      · exact same_refl _
    · exact same_refl _
  | .map k t, n, old, h, hn => by
    simp only [Ty.strKeys, Bool.and_eq_true, decide_eq_true_eq] at h
    obtain ⟨rfl, h⟩ := h
    have ih := fun m (hm : m.WF) => unmarshal_order H O O' t m (zero X t) h hm
    show SameOk (uMap O .str (fun n => unmarshal H O t n (zero X t)) n old) (uMap O' .str (fun n => unmarshal H O' t n (zero X t)) n old)
    unfold uMap
    split
    · exact same_refl _
    · exact assign_same _ _ _ _ (uEntries_same O O' _ _ _ hn.1 fun m hm => ih m.2 (mapWF_mem _ hn.2 m hm))
    · exact assign_same _ _ _ _ (uEntries_same O O' _ _ _ (sorted_ofEntries _) fun m hm => ih m.2 (asMap_mem _ hn m hm))
    · exact same_refl _
  | .struct fs, n, old, h, hn => by
    have ih := fun m (hm : ∀ e ∈ m, e.2.WF) => uFields_order H O O' fs m old h hm
    show SameOk (uObject H O fs (fun m => uFields H O fs m old) n old) (uObject H O' fs (fun m => uFields H O' fs m old) n old)
    unfold uObject
    split
    · exact same_refl _
    · exact uStruct_same _ _ _ _ _ _ _ (ih _ (mapWF_mem _ hn.2))
    · exact uStruct_same _ _ _ _ _ _ _ (ih _ (asMap_mem _ hn))
    · exact same_refl _
theorem uFields_order (H : Handler X) (O O' : Order) : ∀ (fs : Fields) (m : List (Str × Node X)) (old : FVals X fs), fs.strKeys = true →
    (∀ e ∈ m, e.2.WF) → SameOk (uFields H O fs m old) (uFields H O' fs m old)
  | .nil, _, _, _, _ => same_refl _
  | .cons f t fs, m, (v, vs), h, hm => by
    simp only [Fields.strKeys, Bool.and_eq_true] at h
    have ih := uFields_order H O O' fs m vs h.2 hm
    intro hok
    simp only [uFields] at hok ⊢
    split
    · rename_i hx
      rw [if_pos hx] at hok
      cases ht : parseTag f with
      | none => rw [ht] at hok; cases hok
      | some tag =>
        rw [ht] at hok
        simp only at hok ⊢
        cases hl : lookupKey tag.json m with
        | none =>
          rw [hl] at hok
          obtain ⟨h1, h2⟩ := ih hok
          exact ⟨h1, by simp only; rw [h2]⟩
        | some n =>
          have h3 := unmarshal_order H O O' t n v h.1 (hm _ (mem_of_lookup hl))
          rw [hl] at hok
          simp only at hok ⊢
          cases hs : (unmarshal H O t n v).st with
          | ok =>
            rw [hs] at hok
            obtain ⟨h4, h5⟩ := h3 hs
            obtain ⟨h1, h2⟩ := ih hok
            rw [h4]
            exact ⟨h1, by simp only; rw [h2, h5]⟩
          | err => rw [hs] at hok; cases hok
          | panic => rw [hs] at hok; cases hok
    · rename_i hx
      rw [if_neg hx] at hok
      obtain ⟨h1, h2⟩ := ih hok
      exact ⟨h1, by simp only; rw [h2]⟩
end

end Verif.Enc

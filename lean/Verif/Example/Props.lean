import Verif.Example.Model
import Verif.Http.ClientProps
import Verif.Enc.GoodLemmas
import Verif.Enc.ShapeProps
/-!
# The example application keeps what it is given (C130)
-/
set_option autoImplicit false
namespace Verif.Example
open Verif.Strconv Verif.Enc Verif.Api Verif.Http

variable {X : Ext}

/-! ### what should happen -/

/-- The key a request names: none is the empty one, and numbers count as their text. -/
def askedKey (d : List (Str × Node X)) : Option Str :=
  match lookupKey (lit "key") d with
  | none | some .nil => some []
  | some (.str s) => some s
  | some (.digits s) => some s
  | some _ => none

/-- The value a request gives. -/
def askedValue (d : List (Str × Node X)) : Any X :=
  match lookupKey (lit "value") d with
  | none => .nil
  | some n => n.native

/-- What a request asks to set. -/
def asked (N : NetExt) (body : Bytes) : Option (Str × Any X) :=
  match readFrom (X := X) (N.text body) with
  | none => none
  | some d => (askedKey d).map fun k => (k, askedValue d)

/-- The value of `k` after the requests: that of the last one that set it, or the one it had before. -/
def latest (N : NetExt) (k : Str) (before : Any X) : List Bytes → Any X
  | [] => before
  | b :: l => latest N k (match asked N b with | some (k', v) => if k' = k then v else before | none => before) l

/-- JSON numbers that can be parsed can be written: they are finite. -/
def Finite (X : Ext) : Prop := ∀ s f, isNumber s = true → X.fParse s = some f → (X.fJson f).isSome = true

/-! ### values that came as JSON -/

theorem sorted_mapNative (m : List (Str × Node X)) (h : SortedKeys m) : SortedKeys (Node.mapNative m) := by
  unfold SortedKeys at h ⊢
  rw [mapNative_eq, List.pairwise_map]; exact h

mutual
/-- What came as JSON can be kept and written again. -/
theorem native_faithful (hF : Finite X) : ∀ n : Node X, n.plain = true → n.WF → n.encodable = true → n.native.Faithful true ∧ n.native.marshal.depth ≤ n.depth
  | .nil, _, _, _ => ⟨trivial, Nat.le_refl _⟩
  | .bool _, _, _, _ => ⟨trivial, Nat.le_refl _⟩
  | .str _, _, _, _ => ⟨trivial, Nat.le_refl _⟩
  | .digits s, _, _, he => by
    simp only [Node.native]
    cases hp : X.fParse s with
    | none => exact ⟨trivial, Nat.le_refl _⟩
    | some f => exact ⟨fun _ => hF s f he hp, Nat.le_refl _⟩
  | .list l, hp, hw, he => by
    obtain ⟨h1, h2⟩ := list_faithful hF l hp hw he
    exact ⟨h1, Nat.succ_le_succ h2⟩
  | .map m, hp, hw, he => by
    simp only [Node.encodable, Bool.and_eq_true] at he
    obtain ⟨h1, h2⟩ := map_faithful hF m hp hw.2 he.1
    have hs := sorted_mapNative m hw.1
    simp only [Node.native]
    rw [ofEntries_sorted _ hs]
    exact ⟨⟨hs, h1⟩, Nat.succ_le_succ h2⟩
  | .int _, hp, _, _ => by cases hp
  | .float _, hp, _, _ => by cases hp
  | .pairs _, hp, _, _ => by cases hp
  | .time _, hp, _, _ => by cases hp
  | .dur _, hp, _, _ => by cases hp
theorem list_faithful (hF : Finite X) : ∀ l : List (Node X), Node.listPlain l = true → Node.listWF l → Node.listEncodable l = true →
    Any.listFaithful true (Node.listNative l) ∧ Node.listDepth (Any.listMarshal (Node.listNative l)) ≤ Node.listDepth l
  | [], _, _, _ => ⟨trivial, Nat.le_refl _⟩
  | n :: l, hp, hw, he => by
    simp only [Node.listPlain, Node.listEncodable, Bool.and_eq_true] at hp he
    obtain ⟨h1, h2⟩ := native_faithful hF n hp.1 hw.1 he.1
    obtain ⟨h3, h4⟩ := list_faithful hF l hp.2 hw.2 he.2
    refine ⟨⟨h1, h3⟩, ?_⟩
    simp only [Node.listNative, Any.listMarshal, Node.listDepth]
    omega
theorem map_faithful (hF : Finite X) : ∀ l : List (Str × Node X), Node.mapPlain l = true → Node.mapWF l → Node.mapEncodable l = true →
    Any.mapFaithful true (Node.mapNative l) ∧ Node.mapDepth (Any.mapMarshal (Node.mapNative l)) ≤ Node.mapDepth l
  | [], _, _, _ => ⟨trivial, Nat.le_refl _⟩
  | (k, n) :: l, hp, hw, he => by
    simp only [Node.mapPlain, Node.mapEncodable, Bool.and_eq_true] at hp he
    obtain ⟨h1, h2⟩ := native_faithful hF n hp.1 hw.1 he.1
    obtain ⟨h3, h4⟩ := map_faithful hF l hp.2 hw.2 he.2
    refine ⟨⟨h1, h3⟩, ?_⟩
    simp only [Node.mapNative, Any.mapMarshal, Node.mapDepth]
    omega
end

/-- A value the store can give back as JSON. -/
def Keepable (v : Any X) : Prop := v.Faithful true ∧ v.marshal.depth < maxDepth

/-- The members of an object. -/
theorem member_decoded : ∀ (d : List (Str × Node X)) (k : Str) (n : Node X), Node.mapPlain d = true → Node.mapWF d → Node.mapEncodable d = true → lookupKey k d = some n →
    n.plain = true ∧ n.WF ∧ n.encodable = true ∧ n.depth ≤ Node.mapDepth d
  | [], _, _, _, _, _, h => by cases h
  | (k', m) :: d, k, n, hp, hw, he, h => by
    simp only [Node.mapPlain, Node.mapEncodable, Bool.and_eq_true] at hp he
    simp only [Node.mapDepth]
    unfold lookupKey at h
    split at h
    · injection h with h; subst h; exact ⟨hp.1, hw.1, he.1, Nat.le_max_left ..⟩
    · obtain ⟨h1, h2, h3, h4⟩ := member_decoded d k n hp.2 hw.2 he.2 h
      exact ⟨h1, h2, h3, Nat.le_trans h4 (Nat.le_max_right ..)⟩

/-- The members of the object a request carries. -/
theorem member_read (t : Str) (d : List (Str × Node X)) (hr : readFrom t = some d) (k : Str) (n : Node X) (hl : lookupKey k d = some n) :
    n.plain = true ∧ n.WF ∧ n.encodable = true ∧ n.depth < maxDepth := by
  unfold readFrom at hr
  split at hr
  · injection hr with hr; subst hr; cases hl
  · split at hr
    · rename_i m hd
      injection hr with hr; subst hr
      obtain ⟨h1, h2, h3, h4⟩ := decode_decoded _ _ hd
      simp only [Node.encodable, Bool.and_eq_true] at h3
      obtain ⟨k1, k2, k3, k4⟩ := member_decoded m k n h1 h2.2 h3.1 hl
      exact ⟨k1, k2, k3, Nat.lt_of_lt_of_le (Nat.lt_succ_of_le k4) h4⟩
    · cases hr

theorem asked_keepable (hF : Finite X) (N : NetExt) (body : Bytes) (k : Str) (v : Any X) (h : asked N body = some (k, v)) : Keepable v := by
  unfold asked at h
  split at h
  · cases h
  · rename_i d hd
    cases hk : askedKey d with
    | none => rw [hk] at h; cases h
    | some k' =>
      rw [hk] at h
      injection h with h; injection h with _ h
      subst h
      unfold askedValue
      cases hl : lookupKey (lit "value") d with
      | none => exact ⟨trivial, by show 0 < maxDepth; decide⟩
      | some n =>
        obtain ⟨h1, h2, h3, h4⟩ := member_read _ d hd _ n hl
        obtain ⟨h5, h6⟩ := native_faithful hF n h1 h2 h3
        exact ⟨h5, Nat.lt_of_le_of_lt h6 h4⟩

/-! ### registration -/

/-- The handler of `Set`. -/
def setHandler (path : Str) : AHandler where
  init := [1]
  ins := [⟨2, { name := lit "key", isIn := true, isOut := true }⟩, ⟨3, { name := lit "value", isIn := true }⟩]
  outs := [⟨2, { name := lit "key", isIn := true, isOut := true }⟩, ⟨4, { name := lit "prev", isOut := true }⟩]
  urls := [path]

theorem parse_r (U : Str → Option Str) (p : Str) (h : U (lit "/api/v1/set") = some p) :
    parseTags U { name := lit "R", url := lit "/api/v1/set" } = some { name := lit "R", url := some p } := by
  simp only [parseTags, parseUrl]
  rw [if_neg (by decide), h]; rfl

/-! ### one request -/

/-- The object `Recv` makes. -/
def setObj (data : List (Str × Any X)) (k : Str) (v prev : Any X) : FVals X setTy := ((none, ()), some ((), some data, ()), k, v, prev, ())

/-- What reading the key gives. -/
def keyRes (O : Order) (d : List (Str × Node X)) : Res Str := unmarshalField O d (lit "key") { name := lit "Key", api := lit "in,out", tag := lit "key" } .string ([] : Str)
/-- What reading the value gives. -/
def valueRes (O : Order) (d : List (Str × Node X)) : Res (Any X) := unmarshalField O d (lit "value") { name := lit "Value", api := lit "in", tag := lit "value" } .any Any.nil

theorem keyRes_eq (O : Order) (t : Str) (d : List (Str × Node X)) (hr : readFrom t = some d) :
    keyRes O d = match askedKey d with | some k => .ok k | none => .err := by
  unfold keyRes askedKey unmarshalField
  cases hl : lookupKey (lit "key") d with
  | none => rfl
  | some n =>
    have hp := (member_read t d hr _ n hl).1
    cases n <;> first | rfl | cases hp

theorem valueRes_eq (O : Order) (t : Str) (d : List (Str × Node X)) (hr : readFrom t = some d) : valueRes O d = .ok (askedValue d) := by
  unfold valueRes askedValue unmarshalField
  cases hl : lookupKey (lit "value") d with
  | none => rfl
  | some n =>
    have hp := (member_read t d hr _ n hl).1
    cases n <;> first | rfl | cases hp

theorem lookup_member {α : Type} (k : Str) : ∀ (l : List (Str × α)) (v : α), lookupKey k l = some v → ∃ k', (k', v) ∈ l
  | [], _, h => by cases h
  | (k', x) :: l, v, h => by
    unfold lookupKey at h
    split at h
    · injection h with h; subst h; exact ⟨k', List.mem_cons_self ..⟩
    · obtain ⟨k'', hm⟩ := lookup_member k l v h
      exact ⟨k'', List.mem_cons_of_mem _ hm⟩

variable [DecidableEq X.F] [DecidableEq X.T]

theorem set_registered (U : Str → Option Str) (p : Str) (h : U (lit "/api/v1/set") = some p) (data : List (Str × Any X)) :
    registerAPI U (.ptr (.struct setTy) (some (setTmpl data))) = some (setHandler p, [p]) := by
  have hs : newHandler (X := X) U (.ptr (.struct setTy) (some (setTmpl data))) = some (setHandler p) := by
    show (parseTags U { name := lit "R", url := lit "/api/v1/set" }).bind _ = _
    rw [parse_r U p h]
    rfl
  simp only [registerAPI, hs]
  rfl

theorem recv_eq (O : Order) (p : Str) (data : List (Str × Any X)) (d : List (Str × Node X)) :
    recv O (setHandler p) setTy (setTmpl data) { data := d } = (keyRes O d).bind fun k => (valueRes O d).bind fun v => .ok (setObj data k v .nil) := by
  have h1 : modField (unmarshalField O d (lit "key")) setTy 2 (setObj data [] .nil .nil) = (keyRes O d).bind fun k => .ok (setObj data k .nil .nil) := by
    show (((keyRes O d).bind _).bind _).bind _ = _
    cases keyRes O d <;> rfl
  have h2 : ∀ k, modField (unmarshalField O d (lit "value")) setTy 3 (setObj data k .nil .nil) = (valueRes O d).bind fun v => .ok (setObj data k v .nil) := by
    intro k
    show ((((valueRes O d).bind _).bind _).bind _).bind _ = _
    cases valueRes O d <;> rfl
  show ((modField (unmarshalField O d (lit "key")) setTy 2 (setObj data [] .nil .nil)).bind _).bind _ = _
  rw [h1]
  cases keyRes O d with
  | err => rfl
  | panic => rfl
  | ok k =>
    show ((modField (unmarshalField O d (lit "value")) setTy 3 (setObj data k .nil .nil)).bind _).bind _ = (valueRes O d).bind _
    rw [h2]
    cases valueRes O d <;> rfl

theorem recv_asked (N : NetExt) (O : Order) (p : Str) (data : List (Str × Any X)) (body : Bytes) (d : List (Str × Node X)) (hr : readFrom (N.text body) = some d) :
    recv O (setHandler p) setTy (setTmpl data) { data := d } = match asked (X := X) N body with | some (k, v) => .ok (setObj data k v .nil) | none => .err := by
  rw [recv_eq, keyRes_eq O _ d hr, valueRes_eq O _ d hr]
  simp only [asked, hr]
  cases askedKey d <;> rfl

theorem storeAfter_eq (N : NetExt) (O : Order) (p : Str) (data : List (Str × Any X)) (body : Bytes) :
    storeAfter N O (setHandler p) data body = match asked N body with | some (k, v) => insertKey k v data | none => data := by
  unfold storeAfter
  cases hr : readFrom (X := X) (N.text body) with
  | none => simp [asked, hr]
  | some d =>
    simp only [recv_asked N O p data body d hr]
    cases asked (X := X) N body with
    | none => rfl
    | some e => rfl

theorem storeAfter_lookup (N : NetExt) (O : Order) (p : Str) (k : Str) : ∀ (bodies : List Bytes) (data : List (Str × Any X)),
    (lookupKey k (storeAfterAll N O (setHandler p) bodies data)).getD .nil = latest N k ((lookupKey k data).getD .nil) bodies
  | [], _ => rfl
  | b :: l, data => by
    simp only [storeAfterAll, latest]
    rw [storeAfter_lookup N O p k l, storeAfter_eq]
    cases asked (X := X) N b with
    | none => rfl
    | some e =>
      simp only [lookup_insertKey]
      by_cases hk : k = e.1
      · rw [if_pos hk, if_pos hk.symm]; rfl
      · rw [if_neg hk, if_neg (Ne.symm hk)]

theorem storeAfter_keepable (hF : Finite X) (N : NetExt) (O : Order) (p : Str) : ∀ (bodies : List Bytes) (data : List (Str × Any X)), (∀ e ∈ data, Keepable e.2) →
    ∀ e ∈ storeAfterAll N O (setHandler p) bodies data, Keepable e.2
  | [], _, h => h
  | b :: l, data, h => by
    refine storeAfter_keepable hF N O p l _ fun e he => ?_
    rw [storeAfter_eq] at he
    cases ha : asked (X := X) N b with
    | none => rw [ha] at he; exact h e he
    | some q =>
      rw [ha] at he
      rcases mem_insertKey he with rfl | he
      · exact asked_keepable hF N b _ _ ha
      · exact h e he

/-! ### C130 -/

/-- The store gives back what it was given: whatever was requested before, a request to set `k` is answered with `k` and the value of the last request that
set it, or the one it had at the start. -/
theorem C130_set_partial (hX : Laws X) (hF : Finite X) (N : NetExt) (O : Order) (U : Str → Option Str) (p : Str) (hU : U (lit "/api/v1/set") = some p)
    (data : List (Str × Any X)) (hdata : ∀ e ∈ data, Keepable e.2) (before : List Bytes) (body : Bytes) (k : Str) (v : Any X) (ha : asked N body = some (k, v)) :
    ∃ h, registerAPI U (.ptr (.struct setTy) (some (setTmpl data))) = some (h, [p]) ∧ ∃ (s : Str) (n : Node X),
      setReply N O h (storeAfterAll N O h before data) body = .ok (utf8 s) ∧ decode s = some (some (.map [(lit "key", .str k), (lit "prev", n)])) ∧
      n.native = latest N k ((lookupKey k data).getD .nil) before := by
  refine ⟨setHandler p, set_registered U p hU data, ?_⟩
  have hk := storeAfter_keepable hF N O p before data hdata
  have hl := storeAfter_lookup N O p k before data
  generalize storeAfterAll N O (setHandler p) before data = now at hk hl
  have hv : Keepable ((lookupKey k now).getD .nil) := by
    cases hlk : lookupKey k now with
    | none => exact ⟨trivial, by show 0 < maxDepth; decide⟩
    | some x => obtain ⟨k', hm⟩ := lookup_member k now x hlk; exact hk _ hm
  rw [← hl]
  generalize hprev : (lookupKey k now).getD .nil = prev at hv
  have hgood := any_good _ hv.1
  have hs : SortedKeys [(lit "key", Node.str k), (lit "prev", prev.marshal)] := by
    unfold SortedKeys
    simp only [List.pairwise_cons, List.mem_singleton, forall_eq, List.not_mem_nil, false_implies, implies_true, List.Pairwise.nil, and_true]
    decide
  have hg : ∀ e ∈ [(lit "key", Node.str k), (lit "prev", prev.marshal)], Good e.2 := by
    intro e he
    rcases List.mem_cons.1 he with rfl | he
    · exact ⟨trivial, fun _ => rfl⟩
    · rcases List.mem_singleton.1 he with rfl; exact hgood
  have hd : ∀ e ∈ [(lit "key", Node.str k), (lit "prev", prev.marshal)], e.2.depth < maxDepth := by
    intro e he
    rcases List.mem_cons.1 he with rfl | he
    · show 0 < maxDepth; decide
    · rcases List.mem_singleton.1 he with rfl; exact hv.2
  have ho := Api.overJson_ok hX _ hs hg hd
  obtain ⟨txt, he, hread⟩ := Http.overJson_ok ho
  refine ⟨txt, prev.marshal.norm, ?_, ?_, any_round hX true prev hv.1⟩
  · unfold setReply apiFunc
    unfold asked at ha
    cases hr : readFrom (X := X) (N.text body) with
    | none => rw [hr] at ha; cases ha
    | some d =>
      have ha' : asked N body = some (k, v) := by unfold asked; exact ha
      simp only [recv_asked N O p now body d hr, ha']
      have hsend : send O setTy (setObj (insertKey k v now) k v prev) (setHandler p).outs [] = .ok [(lit "key", Node.str k), (lit "prev", prev.marshal)] := rfl
      have hdo : setDo (setObj now k v .nil) = .ok (setObj (insertKey k v now) k v prev) := by rw [← hprev]; rfl
      simp only [hdo, hsend, he]
  · unfold readFrom at hread
    split at hread
    · cases hread
    · split at hread
      · rename_i m hm
        injection hread with hread; subst hread; exact hm
      · cases hread

/-- A request that is not understood is refused, and sets nothing. -/
theorem C130_refused (N : NetExt) (O : Order) (U : Str → Option Str) (p : Str) (hU : U (lit "/api/v1/set") = some p) (data : List (Str × Any X)) (body : Bytes)
    (ha : asked (X := X) N body = none) : ∃ h, registerAPI U (.ptr (.struct setTy) (some (setTmpl data))) = some (h, [p]) ∧
      (∃ e, setReply N O h data body = .err e) ∧ storeAfter N O h data body = data := by
  refine ⟨setHandler p, set_registered U p hU data, ?_, by rw [storeAfter_eq, ha]⟩
  unfold setReply apiFunc
  cases hr : readFrom (X := X) (N.text body) with
  | none => exact ⟨_, rfl⟩
  | some d => simp only [recv_asked N O p data body d hr, ha]; exact ⟨_, rfl⟩

/-- C130 is violated: `Get` can not be registered, its `api` tag has words that are not known. The application ignores the error, so what was set can not be
read. -/
theorem C130_get_violated (U : Str → Option Str) (tmpl : Option (FVals X getTy)) : registerAPI (X := X) U (.ptr (.struct getTy) tmpl) = none := by
  have hs : newHandler (X := X) U (.ptr (.struct getTy) tmpl) = none := by
    show (parseTags U { name := lit "any", exported := false, url := lit "/api/v1/get" }).bind _ = none
    refine Option.bind_eq_none_iff.2 fun t _ => ?_
    exact Option.bind_eq_none_iff.2 fun h _ => rfl
  simp only [registerAPI, hs]

/-- The mutex of the store is not written. -/
example : liveNames storeTy = [lit "Data"] := by decide

/-- `Get` without the field whose tag is not known. -/
def getTy' : Fields :=
  .cons { name := lit "any", exported := false, url := lit "/api/v1/get" } .any <|
  .cons { name := lit "UID", api := lit "auth,required" } .string <|
  .cons { name := lit "Store" } (.ptr (.struct storeTy)) <|
  .cons { name := lit "Key", api := lit "in,out", tag := lit "key" } .string <|
  .cons { name := lit "Value", api := lit "out", tag := lit "value" } .any .nil

/-- C130 is violated even without that field: `Get` requires an identity, which requests over http never have. -/
theorem C130_auth_violated (N : NetExt) (U : Str → Option Str) (tid accept : Str) (O : Order) (tmpl : Option (Val X (.struct getTy'))) (h : AHandler)
    (hh : newHandler U (.ptr (.struct getTy') tmpl) = some h) (now : FVals X getTy') (exec : FVals X getTy' → Done (FVals X getTy')) (body : Bytes) (r : Resp) (m : Int)
    (hr : handleRequest N tid accept (apiFunc N O h getTy' now exec) (some (some body)) = some (r, m)) : r.status = 400 ∨ r.status = 500 :=
  C82_violated N U tid accept O getTy' tmpl h hh { name := lit "UID", api := lit "auth,required" } (by unfold getTy' Fields.infos; simp [Fields.infos])
    (by unfold IsAuth; decide) (by unfold IsRequired; decide) now exec body r m hr

/-- The answer, if it is one. -/
def okBytes : Done Bytes → Option Bytes
  | .ok b => some b
  | _ => none

/-- C130: `{"key":"a","value":[1.5]}` and then `{"key":"a"}`: the second is told what the first one set. -/
example : okBytes (setReply (X := XT) NT sortedOrder (setHandler (lit "/api/v1/set")) (storeAfterAll NT sortedOrder (setHandler (lit "/api/v1/set"))
    [utf8 (lit "{\"key\":\"a\",\"value\":[1.5]}")] [(lit "true", .bool true)]) (utf8 (lit "{\"key\":\"a\"}"))) = some (utf8 (lit "{\"key\":\"a\",\"prev\":[1.5]}")) := by
  decide +kernel

end Verif.Example

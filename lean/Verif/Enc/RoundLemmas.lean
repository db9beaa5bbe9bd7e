import Verif.Enc.TypedLemmas
/-!
# The induction behind the typed round trips
-/
set_option autoImplicit false
namespace Verif.Enc
open Verif.Strconv

variable {X : Ext}

theorem bind_ok {α β : Type} {r : Res α} {f : α → Res β} {b : β} (h : r.bind f = .ok b) : ∃ a, r = .ok a ∧ f a = .ok b := by
  cases r with
  | ok a => exact ⟨a, rfl, h⟩
  | err => cases h
  | panic => cases h

theorem ptrFix_ok (t : Ty) (r : Res (Node X)) (n : Node X) (h : ptrFix t r = .ok n) : r = .ok n ∨ ∃ x, r = .ok x ∧ marshalNode x = .ok n ∧ t = .time := by
  unfold ptrFix at h
  split at h
  · exact .inr ⟨_, rfl, h, rfl⟩
  · exact .inl h

theorem int_zero (w : Width) (v : BitVec w.bits) (h : v.toInt = 0) : v = 0 := by
  apply BitVec.eq_of_toInt_eq
  rw [h]; simp

theorem uint_toInt (w : Width) (v : BitVec w.bits) (h : v.toNat < 2 ^ 63) : (BitVec.ofNat 64 v.toNat).toInt = (v.toNat : Int) := by
  rw [BitVec.toInt_eq_toNat_cond, BitVec.toNat_ofNat]
  have : v.toNat % 2 ^ 64 = v.toNat := Nat.mod_eq_of_lt (by omega)
  rw [this, if_pos (by omega)]

theorem uint_zero (w : Width) (v : BitVec w.bits) (h : v.toNat < 2 ^ 63) (hz : (BitVec.ofNat 64 v.toNat).toInt = 0) : v = 0 := by
  rw [uint_toInt w v h] at hz
  apply BitVec.eq_of_toNat_eq
  simp only [BitVec.ofNat_eq_ofNat, BitVec.toNat_ofNat, Nat.zero_mod]
  omega

theorem empty_str (s : Str) (h : emptyNode (X := X) (.str s) = true) : s = [] := by simpa [emptyNode] using h

/-- What is marshalled as nothing, zero or the empty string is that. -/
theorem isEmpty_of_marshal (hX : Laws X) (J : Bool) (O : Order) : ∀ (t : Ty) (v : Val X t) (n : Node X), Faithful J t v → marshal O t v = .ok n →
    (emptyNode n = true → isEmptyVal t v) ∧ (n = .nil → isNilVal t v)
  | .bool, v, n, _, h => by
    simp only [marshal] at h; injection h with h; subst h
    exact ⟨fun h => by simp [emptyNode] at h, fun h => by cases h⟩
  | .int w, v, n, _, h => by
    simp only [marshal] at h; injection h with h; subst h
    refine ⟨fun h => ?_, fun h => by cases h⟩
    exact int_zero w v (by simpa [emptyNode] using h)
  | .uint w, v, n, hf, h => by
    simp only [marshal] at h; injection h with h; subst h
    refine ⟨fun h => ?_, fun h => by cases h⟩
    exact uint_zero w v hf (by simpa [emptyNode] using h)
  | .float64, v, n, _, h => by
    simp only [marshal] at h; injection h with h; subst h
    exact ⟨fun h => h, fun h => by cases h⟩
  | .float32, v, n, _, h => by
    simp only [marshal] at h; injection h with h; subst h
    exact ⟨fun h => h, fun h => by cases h⟩
  | .string, v, n, _, h => by
    simp only [marshal] at h; injection h with h; subst h
    exact ⟨fun h => empty_str _ h, fun h => by cases h⟩
  | .any, v, n, hf, h => by
    simp only [marshal] at h; injection h with h; subst h
    have hf : Any.Faithful J (v : Any X) := hf
    revert hf
    cases (v : Any X) with
    | nil => intro _; exact ⟨fun _ => .inl rfl, fun _ => rfl⟩
    | bool b => intro _; exact ⟨fun h => by simp [Any.marshal, emptyNode] at h, fun h => by cases h⟩
    | str s => intro _; exact ⟨fun h => by simp [Any.marshal, emptyNode] at h; subst h; exact .inr (.inl rfl), fun h => by cases h⟩
    | f64 f => intro _; exact ⟨fun h => .inr (.inr (.inr ⟨f, rfl, h⟩)), fun h => by cases h⟩
    | i64 i => intro _; exact ⟨fun h => by simp [Any.marshal, emptyNode] at h; subst h; exact .inr (.inr (.inl rfl)), fun h => by cases h⟩
    | list l => intro _; exact ⟨fun h => by simp [Any.marshal, emptyNode] at h, fun h => by cases h⟩
    | map l => intro _; exact ⟨fun h => by simp [Any.marshal, emptyNode] at h, fun h => by cases h⟩
    | time t => intro h; exact h.elim
    | dur t => intro h; exact h.elim
    | encTime t => intro h; exact h.elim
    | encDur t => intro h; exact h.elim
  | .node, v, n, hf, h => by
    obtain ⟨m, hm, h1, h2, h3, h4⟩ := hf
    have hm : v = some m := hm
    subst hm
    simp only [marshal, marshalNode_plain hX m h1 h2 h3 h4] at h
    injection h with h; subst h
    constructor
    · intro he
      cases m with
      | nil => exact .inr (.inl rfl)
      | str s => simp [emptyNode] at he; subst he; exact .inr (.inr rfl)
      | digits s => simp [emptyNode] at he; subst he; simp [Node.encodable, isNumber, parseNumber, numBody, numInt] at h3
      | bool _ => simp [emptyNode] at he
      | list _ => simp [emptyNode] at he
      | map _ => simp [emptyNode] at he
      | int _ => cases h2
      | float _ => cases h2
      | pairs _ => cases h2
      | time _ => cases h2
      | dur _ => cases h2
    · rintro rfl; exact .inr rfl
  | .time, v, n, _, h => by
    simp only [marshal] at h; injection h with h; subst h
    exact ⟨fun h => by simp [emptyNode] at h, fun h => by cases h⟩
  | .encTime, v, n, _, h => by
    simp only [marshal] at h; injection h with h; subst h
    exact ⟨fun h => empty_str _ h, fun h => by cases h⟩
  | .encDur, v, n, _, h => by
    simp only [marshal] at h; injection h with h; subst h
    exact ⟨fun h => empty_str _ h, fun h => by cases h⟩
  | .func, v, n, hf, h => hf.elim
  | .chan, v, n, hf, h => hf.elim
  | .iface, v, n, _, h => ⟨fun _ => trivial, fun _ => trivial⟩
  | .ptr t, v, n, hf, h => by
    match v, hf, h with
    | none, hf, h => exact ⟨fun _ => trivial, fun _ => trivial⟩
    | some x, hf, h =>
      simp only [marshal] at h
      rcases ptrFix_ok t _ n h with h | ⟨y, hy, hm, ht⟩
      · exact isEmpty_of_marshal hX J O t x n hf.1 h
      · subst ht
        simp only [marshal] at hy
        injection hy with hy; subst hy
        have hm := (marshalNode_time (X := X) x).symm.trans hm
        injection hm with hm; subst hm
        exact ⟨fun h => empty_str _ h, fun h => by cases h⟩
  | .slice t, v, n, hf, h => by
    match v, hf, h with
    | none, hf, h => exact ⟨fun _ => rfl, fun _ => rfl⟩
    | some l, hf, h =>
      simp only [marshal] at h
      obtain ⟨ns, _, h⟩ := bind_ok h
      injection h with h; subst h
      exact ⟨fun h => by simp [emptyNode] at h, fun h => by cases h⟩
  | .array k t, v, n, hf, h => by
    simp only [marshal] at h
    obtain ⟨ns, _, h⟩ := bind_ok h
    injection h with h; subst h
    exact ⟨fun h => by simp [emptyNode] at h, fun h => by cases h⟩
  | .map k t, v, n, hf, h => by
    match v, hf, h with
    | none, hf, h => exact ⟨fun _ => rfl, fun _ => rfl⟩
    | some l, hf, h =>
      simp only [marshal] at h
      obtain ⟨ns, _, h⟩ := bind_ok h
      injection h with h; subst h
      exact ⟨fun h => by simp [emptyNode] at h, fun h => by cases h⟩
  | .struct fs, v, n, hf, h => by
    simp only [marshal] at h
    obtain ⟨ns, _, h⟩ := bind_ok h
    injection h with h; subst h
    exact ⟨fun h => by simp [emptyNode] at h, fun h => by cases h⟩

theorem round_elems {α : Type} {f : α → Res (Node X)} {g : Node X → Out X α} (J : Bool) (l : List α)
    (h : ∀ x ∈ l, ∃ n, f x = .ok n ∧ g (wire J n) = .done x) : ∃ ns, mapRes f l = .ok ns ∧ uElems g (ns.map (wire J)) = .done l := by
  refine ⟨_, mapRes_ok .nil f l (fun x hx => by obtain ⟨n, hn, _⟩ := h x hx; exact ⟨n, hn⟩), ?_⟩
  rw [uElems_ok]
  · congr 1
    simp only [List.map_map]
    conv => rhs; rw [← List.map_id l]
    apply List.map_congr_left
    intro x hx
    obtain ⟨n, hn, hg⟩ := h x hx
    simp [hn, Res.getD, hg, Out.done]
  · intro n hn
    simp only [List.map_map, List.mem_map] at hn
    obtain ⟨x, hx, rfl⟩ := hn
    obtain ⟨n, hn, hg⟩ := h x hx
    exact ⟨x, by simp [hn, Res.getD, hg]⟩

theorem round_entries {α : Type} (O O' : Order) {f : α → Res (Node X)} {g : Node X → Out X α} (J : Bool) (k : KTy) (m : List (Str × α)) (hs : SortedKeys m)
    (h : ∀ e ∈ m, normKey k e.1 = some e.1 ∧ ∃ n, f e.2 = .ok n ∧ g (wire J n) = .done e.2) :
    ∃ ns, ((mapRes (fun e => (f e.2).bind fun n => if k = .other then .err else .ok (e.1, n)) (O.perm m)).bind fun l => .ok (.map (ofEntries l))) =
        (.ok (.map ns) : Res (Node X)) ∧ uEntries k g (O'.perm (ns.map fun e => (e.1, wire J e.2))) [] = .done m := by
  let nf : Str × α → Node X := fun e => (f e.2).getD .nil
  refine ⟨m.map fun e => (e.1, nf e), ?_, ?_⟩
  · have hk : ∀ e ∈ m, k ≠ .other := by rintro e he rfl; exact absurd (h e he).1 (by simp [normKey])
    have hok : ∀ e ∈ O.perm m, (f e.2).bind (fun n => if k = .other then .err else .ok (e.1, n)) = .ok (e.1, nf e) := by
      intro e he
      have he := (O.isPerm m).mem_iff.1 he
      obtain ⟨_, n, hn, _⟩ := h e he
      simp [hn, Res.bind, hk e he, nf, Res.getD]
    have hm : mapRes (fun e => (f e.2).bind fun n => if k = .other then .err else .ok (e.1, n)) (O.perm m) = .ok ((O.perm m).map fun e => (e.1, nf e)) := by
      rw [mapRes_ok ([], .nil) _ _ (fun e he => ⟨_, hok e he⟩)]
      congr 1
      apply List.map_congr_left
      intro e he
      rw [hok e he]; rfl
    rw [hm]
    simp only [Res.bind]
    rw [ofEntries_perm _ (m.map fun e => (e.1, nf e)) ((O.isPerm m).map _) (sorted_map_val nf m hs)]
  · have hcond : ∀ e ∈ O'.perm ((m.map fun e => (e.1, nf e)).map fun e => (e.1, wire J e.2)), normKey k e.1 = some e.1 ∧ ∃ v, g e.2 = .done v := by
      intro e he
      have he := (O'.isPerm _).mem_iff.1 he
      simp only [List.map_map, List.mem_map] at he
      obtain ⟨x, hx, rfl⟩ := he
      obtain ⟨h1, n, hn, hg⟩ := h x hx
      exact ⟨h1, x.2, by simp [nf, hn, Res.getD, hg]⟩
    rw [uEntries_ok k g _ [] hcond]
    congr 1
    refine ofEntries_perm _ m ?_ hs
    refine ((O'.isPerm _).map _).trans ?_
    simp only [List.map_map]
    have : m.map ((fun e => (e.1, (g e.2).val)) ∘ (fun e => (e.1, wire J e.2)) ∘ fun e => (e.1, nf e)) = m := by
      conv => rhs; rw [← List.map_id m]
      apply List.map_congr_left
      intro x hx
      obtain ⟨h1, n, hn, hg⟩ := h x hx
      simp [nf, hn, Res.getD, hg, Out.done]
    rw [this]

theorem skip_json (f : FieldInfo) (tag : Tag) (h : parseTag f = some tag) (hs : tag.skip = true) : tag.json = [] := by
  unfold parseTag at h
  split at h
  · injection h with h; subst h; rfl
  · simp only at h
    split at h
    · injection h with h; subst h; cases hs
    · split at h
      · injection h with h; subst h; cases hs
      · cases h

/-! ### the induction -/

theorem live_subset_seen (fs : Fields) : ∀ k ∈ liveNames fs, k ∈ seenNames fs := by
  intro k hk
  induction fs using Fields.rec (motive_1 := fun _ => True) with
  | cons f t fs _ ih =>
    simp only [liveNames, seenNames, List.mem_append] at hk ⊢
    cases he : f.exported with
    | false => rw [he] at hk; simp at hk; exact ih hk
    | true =>
      rw [he] at hk
      simp only [if_true] at hk ⊢
      rw [List.mem_append]
      rcases hk with hk | hk
      · left
        cases ht : parseTag f with
        | none => rw [ht] at hk; simp at hk
        | some tag =>
          rw [ht] at hk
          simp only at hk ⊢
          split at hk
          · simp at hk
          · exact hk
      · exact .inr (ih hk)
  | nil => simp [liveNames] at hk
  | _ => trivial

theorem lookup_none_of_not_mem {α : Type} (k : Str) (l : List (Str × α)) (h : ∀ e ∈ l, e.1 ≠ k) : lookupKey k l = none := by
  cases hl : lookupKey k l with
  | none => rfl
  | some v => exact absurd rfl (h _ (mem_of_lookup hl))

theorem mem_ofEntries {α : Type} (l : List (Str × α)) (e : Str × α) (h : e ∈ ofEntries l) : e ∈ l := by
  have := lookup_of_mem (sorted_ofEntries l) (k := e.1) (v := e.2) h
  rw [lookup_ofEntries] at this
  simpa using mem_of_lookup this

theorem lookup_reverse_nodup {α : Type} (k : Str) (l : List (Str × α)) (h : (l.map (·.1)).Nodup) : lookupKey k l.reverse = lookupKey k l := by
  have uniq : ∀ (l : List (Str × α)), (l.map (·.1)).Nodup → ∀ v v', (k, v) ∈ l → (k, v') ∈ l → v = v' := by
    intro l
    induction l with
    | nil => intro _ v v' h; simp at h
    | cons e l ih =>
      intro hn v v' h1 h2
      simp only [List.map_cons, List.nodup_cons] at hn
      rcases List.mem_cons.1 h1 with h1 | h1 <;> rcases List.mem_cons.1 h2 with h2 | h2
      · rw [← h2] at h1; injection h1
      · exfalso; apply hn.1; rw [← h1]; exact List.mem_map.2 ⟨_, h2, rfl⟩
      · exfalso; apply hn.1; rw [← h2]; exact List.mem_map.2 ⟨_, h1, rfl⟩
      · exact ih hn.2 v v' h1 h2
  cases h1 : lookupKey k l.reverse with
  | none =>
    cases h2 : lookupKey k l with
    | none => rfl
    | some v =>
      obtain ⟨v', h3⟩ := lookup_isSome_of_mem (l := l.reverse) (by simpa using mem_of_lookup h2)
      rw [h1] at h3; cases h3
  | some v =>
    obtain ⟨v', h3⟩ := lookup_isSome_of_mem (l := l) (by simpa using mem_of_lookup h1)
    rw [h3]
    rw [uniq l h v v' (by simpa using mem_of_lookup h1) (mem_of_lookup h3)]

theorem un_struct_pairs (H : Handler X) (O : Order) (fs : Fields) (l : List ((Str × Str) × Node X)) (old : FVals X fs) :
    unmarshal H O (.struct fs) (.pairs l) old = uStruct H O fs (asMap l) (uFields H O fs (asMap l) old) := rfl

theorem un_struct_map (H : Handler X) (O : Order) (fs : Fields) (m : List (Str × Node X)) (old : FVals X fs) :
    unmarshal H O (.struct fs) (.map m) old = uStruct H O fs m (uFields H O fs m old) := rfl

theorem un_int (H : Handler X) (O : Order) (w : Width) (n : Node X) (old : Val X (.int w)) (i : Int) (h : n.int64 = some i) :
    unmarshal H O (.int w) n old = .done (BitVec.ofInt w.bits i : BitVec w.bits) := by
  cases n with
  | int j => injection h with h; subst h; rfl
  | float f => injection h with h; subst h; rfl
  | digits s =>
    have h : parseInt (trimDecimal s) = some i := h
    show numOut (α := BitVec w.bits) (.digits s) ((parseInt (trimDecimal s)).map _) _ _ = _
    rw [h]; rfl
  | _ => cases h

theorem un_uint (H : Handler X) (O : Order) (w : Width) (n : Node X) (old : Val X (.uint w)) (i : Int) (h : n.uint64 = some i) :
    unmarshal H O (.uint w) n old = .done (BitVec.ofInt w.bits i : BitVec w.bits) := by
  cases n with
  | int j => injection h with h; subst h; rfl
  | float f => injection h with h; subst h; rfl
  | digits s =>
    show numOut (α := BitVec w.bits) (.digits s) ((Node.uint64 (.digits s : Node X)).map _) _ _ = _
    rw [h]; rfl
  | _ => cases h

theorem struct_wire (H : Handler X) (O : Order) (J : Bool) (fs : Fields) (l : List ((Str × Str) × Node X)) (old : FVals X fs) :
    unmarshal H O (.struct fs) (wire J (.pairs l)) old =
      uStruct H O fs (ofEntries (l.map fun p => (p.1.2, wire J p.2))) (uFields H O fs (ofEntries (l.map fun p => (p.1.2, wire J p.2))) old) := by
  cases J
  · exact un_struct_pairs H O fs l old
  · have : wire (X := X) true (.pairs l) = .map (ofEntries (l.map fun p => (p.1.2, wire true p.2))) := by
      show Node.map (ofEntries (Node.pairsNorm l)) = _
      rw [pairsNorm_eq]; rfl
    rw [this]
    exact un_struct_map H O fs _ old

theorem uElems_len {α : Type} (f : Node X → Out X α) (l : List (Node X)) (h : (uElems f l).st = .ok) : (uElems f l).val.length = l.length := by
  induction l with
  | nil => rfl
  | cons n l ih =>
    simp only [uElems] at h ⊢
    cases hs : (f n).st with
    | ok => rw [hs] at h; simp only at h ⊢; simp [ih h]
    | err => rw [hs] at h; simp at h
    | panic => rw [hs] at h; simp at h

theorem un_float (H : Handler X) (O : Order) (n : Node X) (old : Val X .float64) (f : X.F) (h : n.float64 = some f) :
    unmarshal H O .float64 n old = .done f := by
  cases n with
  | int j => injection h with h; subst h; rfl
  | float f => injection h with h; subst h; rfl
  | digits s =>
    show numOut (α := X.F) (.digits s) (Node.float64 (.digits s : Node X)) _ _ = _
    rw [h]; rfl
  | _ => cases h

theorem un_float32 (H : Handler X) (O : Order) (n : Node X) (old : Val X .float32) (f : X.F) (h : n.float64 = some f) :
    unmarshal H O .float32 n old = .done (X.f32 f) := by
  cases n with
  | int j => injection h with h; subst h; rfl
  | float f => injection h with h; subst h; rfl
  | digits s =>
    show numOut (α := X.F) (.digits s) ((Node.float64 (.digits s : Node X)).map _) _ _ = _
    rw [h]; rfl
  | _ => cases h

theorem wire_uint64 (J : Bool) (w : Width) (v : BitVec w.bits) (hv : v.toNat < 2 ^ 63) :
    (wire J (.int (BitVec.ofNat 64 v.toNat).toInt) : Node X).uint64 = some (v.toNat : Int) := by
  rw [uint_toInt w v hv]
  cases J
  · show some _ = _
    rw [BitVec.ofInt_natCast, BitVec.toNat_ofNat, Nat.mod_eq_of_lt (by omega)]
  · simp only [wire, if_true, Node.norm, Node.uint64]
    rw [trimDecimal_fmtInt, parseUint_fmtInt _ (by omega) (by omega)]
    simp

theorem wire_int64 (J : Bool) (w : Width) (v : BitVec w.bits) : (wire J (.int v.toInt) : Node X).int64 = some v.toInt := by
  have hr := toInt_range w v
  cases J
  · rfl
  · simp only [wire, if_true, Node.norm, Node.int64]
    rw [trimDecimal_fmtInt, parseInt_fmtInt _ hr.1 hr.2]

theorem wire_float64 (hX : Laws X) (J : Bool) (f : X.F) (h : J = true → (X.fJson f).isSome = true) : (wire J (.float f) : Node X).float64 = some f := by
  cases J
  · rfl
  · obtain ⟨t, ht⟩ := Option.isSome_iff_exists.1 (h rfl)
    simp only [wire, if_true, Node.norm, Node.float64, ht, Option.getD_some, hX.fParse_fJson f t ht]

theorem ofInt_toNat (w : Width) (v : BitVec w.bits) : BitVec.ofInt w.bits (v.toNat : Int) = v := by
  rw [BitVec.ofInt_natCast, BitVec.ofNat_toNat, BitVec.setWidth_eq]

theorem un_slice (H : Handler X) (O : Order) (t : Ty) (l : List (Node X)) (old : Val X (.slice t)) (vs : List (Val X t))
    (h : uElems (fun n => unmarshal H O t n (zero X t)) l = .done vs) : unmarshal H O (.slice t) (.list l) old = .done (some vs : Option (List (Val X t))) := by
  show (uElems (fun n => unmarshal H O t n (zero X t)) l).assign _ old = _
  rw [h]; rfl

theorem uArray_ok {α : Type} (k : Nat) (f : Node X → Out X α) (l : List (Node X)) (z old : { l : List α // l.length = k }) (vs : List α) (hl : vs.length = k)
    (h : uElems f l = .done vs) : uArray k f (.list l) z old = .done ⟨vs, hl⟩ := by
  have hlen := uElems_len f l (by rw [h]; rfl)
  rw [h] at hlen
  have hlen : vs.length = l.length := hlen
  simp only [uArray]
  rw [if_pos (by omega), h]
  show Out.mk (if h : vs.length = k then (⟨vs, h⟩ : { l : List α // l.length = k }) else old) Status.ok [] = _
  rw [dif_pos hl]; rfl

theorem un_array (H : Handler X) (O : Order) (k : Nat) (t : Ty) (l : List (Node X)) (old : Val X (.array k t)) (vs : List (Val X t)) (hl : vs.length = k)
    (h : uElems (fun n => unmarshal H O t n (zero X t)) l = .done vs) :
    unmarshal H O (.array k t) (.list l) old = .done (⟨vs, hl⟩ : { l : List (Val X t) // l.length = k }) :=
  uArray_ok k _ l _ old vs hl h

theorem uTime_wire (J : Bool) (t old : X.T) (h : X.tStrict (X.tFmt t) = some t) : uTime (wire J (.time t)) old = .done t := by
  cases J <;> simp [wire, uTime, Node.norm, Node.encodable, Node.jsonString, h]

theorem uTime_wire_str (J : Bool) (t old : X.T) (h : X.tStrict (X.tFmt t) = some t) : uTime (wire J (.str (X.tFmt t))) old = .done t := by
  cases J <;> simp [wire, uTime, Node.norm, Node.encodable, Node.jsonString, h]

theorem uEncTime_wire (J : Bool) (t old : X.T) (h : X.tParse (X.tFmt t) = some t) : uEncTime (wire J (.str (X.tFmt t))) old = .done t := by
  cases J <;> simp [wire, uEncTime, Node.norm, Node.jsonString, h]

theorem uEncDur_wire (J : Bool) (d old : Int) (h : durParse X (durText X d) = some d) : uEncDur (X := X) (wire J (.str (durText X d))) old = .done d := by
  cases J <;> simp [wire, uEncDur, Node.norm, Node.jsonString, h]

theorem uPtr_ok {α : Type} (f : Node X → Out X α) (n : Node X) (v : α) (hn : n ≠ .nil) (h : f n = .done v) : uPtr f n = .done (some v) := by
  unfold uPtr
  split
  · exact absurd rfl hn
  · rw [h]; rfl

theorem un_map (H : Handler X) (O : Order) (k : KTy) (t : Ty) (m : List (Str × Node X)) (old : Val X (.map k t)) (vs : List (Str × Val X t))
    (h : uEntries k (fun n => unmarshal H O t n (zero X t)) (O.perm m) [] = .done vs) :
    unmarshal H O (.map k t) (.map m) old = .done (some vs : Option (List (Str × Val X t))) := by
  show (uEntries k (fun n => unmarshal H O t n (zero X t)) (O.perm m) []).assign _ old = _
  rw [h]; rfl

theorem round_float32 (hX : Laws X) (J : Bool) (H : Handler X) (O : Order) (f : X.F) (old : Val X .float32) (h : J = true → (X.fJson f).isSome = true)
    (h1 : X.f32 f = f) : unmarshal H O .float32 (wire J (.float f)) old = .done f := by
  rw [un_float32 H O _ old f (wire_float64 hX J f h), h1]

mutual
theorem round (hX : Laws X) (J : Bool) (O O' : Order) (H : Handler X) : ∀ (t : Ty) (v : Val X t), Faithful J t v →
    ∃ n, marshal O t v = .ok n ∧ unmarshal H O' t (wire J n) (zero X t) = .done v
  | .bool, v, _ => ⟨.bool v, rfl, by cases J <;> rfl⟩
  | .int w, v, _ =>
    ⟨_, rfl, (un_int H O' w _ _ _ (wire_int64 J w v)).trans (congrArg Out.done (BitVec.ofInt_toInt (x := v)))⟩
  | .uint w, v, h =>
    ⟨_, rfl, (un_uint H O' w _ _ _ (wire_uint64 J w v h)).trans (congrArg Out.done (ofInt_toNat w v))⟩
  | .float64, f, h => ⟨_, rfl, un_float H O' _ _ _ (wire_float64 hX J f h)⟩
  | .float32, f, h => ⟨.float f, rfl, round_float32 hX J H O' f _ h.2 h.1⟩
  | .string, s, _ => ⟨_, rfl, by cases J <;> rfl⟩
  | .any, a, h => ⟨Any.marshal a, rfl, congrArg Out.done (intoAny_round hX J a h)⟩
  | .node, v, h => by
    obtain ⟨m, hm, h1, h2, h3, h4⟩ := h
    have hm : v = some m := hm
    subst hm
    refine ⟨m, ?_, ?_⟩
    · simp only [marshal]; exact marshalNode_plain hX m h1 h2 h3 h4
    · rw [wire_plain J m h2]; rfl
  | .time, t, h => ⟨_, rfl, uTime_wire J t _ h⟩
  | .encTime, t, h => ⟨_, rfl, uEncTime_wire J t _ h⟩
  | .encDur, d, h => ⟨_, rfl, uEncDur_wire J d _ h⟩
  | .func, _, h => h.elim
  | .chan, _, h => h.elim
  | .iface, _, _ => ⟨.nil, rfl, by cases J <;> rfl⟩
  | .ptr t, v, h => by
    match v, h with
    | none, h =>
      have h : t.valueMarshaler = false := h
      exact ⟨.nil, by simp [marshal, h], by cases J <;> rfl⟩
    | some x, h =>
      obtain ⟨hf, hn⟩ := (h : Faithful J t x ∧ ¬ isNilVal t x)
      obtain ⟨n, hm, hu⟩ := round hX J O O' H t x hf
      by_cases ht : t = .time
      · subst ht
        refine ⟨.str (X.tFmt x), ?_, ?_⟩
        · simp only [marshal, ptrFix]; exact marshalNode_time x
        · exact uPtr_ok _ _ x (by cases J <;> simp [wire, Node.norm]) (uTime_wire_str J x _ hf)
      · refine ⟨n, ?_, ?_⟩
        · simp only [marshal, hm]
          unfold ptrFix
          split
          · exact absurd rfl ht
          · rfl
        · have hne : wire J n ≠ .nil := fun he => hn ((isEmpty_of_marshal hX J O t x n hf hm).2 (wire_eq_nil J n he))
          exact uPtr_ok _ _ x hne hu
  | .slice t, v, h => by
    match v, h with
    | none, h => exact ⟨.nil, rfl, by cases J <;> rfl⟩
    | some l, h =>
      have h : ∀ x ∈ l, Faithful J t x := h
      have hr : ∀ x ∈ l, ∃ n, marshal O t x = .ok n ∧ unmarshal H O' t (wire J n) (zero X t) = .done x := fun x hx => round hX J O O' H t x (h x hx)
      obtain ⟨ns, hm, hu⟩ := round_elems (f := marshal O t) (g := fun n => unmarshal H O' t n (zero X t)) J l hr
      refine ⟨.list ns, ?_, ?_⟩
      · simp only [marshal, hm, Res.bind]
      · rw [wire_list]; exact un_slice H O' t _ _ _ hu
  | .array k t, v, h => by
    obtain ⟨l, hl⟩ := v
    have h : ∀ x ∈ l, Faithful J t x := h
    have hr : ∀ x ∈ l, ∃ n, marshal O t x = .ok n ∧ unmarshal H O' t (wire J n) (zero X t) = .done x := fun x hx => round hX J O O' H t x (h x hx)
    obtain ⟨ns, hm, hu⟩ := round_elems (f := marshal O t) (g := fun n => unmarshal H O' t n (zero X t)) J l hr
    refine ⟨.list ns, ?_, ?_⟩
    · simp only [marshal, hm, Res.bind]
    · rw [wire_list]; exact un_array H O' k t _ _ l hl hu
  | .map k t, v, h => by
    match v, h with
    | none, h => exact ⟨.nil, rfl, by cases J <;> rfl⟩
    | some m, h =>
      obtain ⟨hs, h⟩ := (h : SortedKeys m ∧ ∀ e ∈ m, normKey k e.1 = some e.1 ∧ Faithful J t e.2)
      have hr : ∀ e ∈ m, normKey k e.1 = some e.1 ∧ ∃ n, marshal O t e.2 = .ok n ∧ unmarshal H O' t (wire J n) (zero X t) = .done e.2 :=
        fun x hx => ⟨(h x hx).1, round hX J O O' H t x.2 (h x hx).2⟩
      obtain ⟨ns, hm, hu⟩ := round_entries O O' (f := marshal O t) (g := fun n => unmarshal H O' t n (zero X t)) J k m hs hr
      refine ⟨.map ns, ?_, ?_⟩
      · simp only [marshal]; exact hm
      · rw [wire_map]; exact un_map H O' k t _ _ m hu
  | .struct fs, v, h => by
    have h : (liveNames fs).Nodup ∧ [] ∉ liveNames fs ∧ FaithfulFields J fs v := h
    obtain ⟨h1, h2, h3⟩ := h
    obtain ⟨l, hm, hk, hn, hu⟩ := roundFields hX J O O' H fs v h3 h1 h2
    refine ⟨.pairs l, by simp only [marshal, hm, Res.bind], (struct_wire H O' J fs l (zeroFields X fs)).trans ?_⟩
    have hkeys : ∀ e ∈ ofEntries (l.map fun p => (p.1.2, wire J p.2)), e.1 ∈ liveNames fs := by
      intro e he
      have := mem_ofEntries _ e he
      obtain ⟨p, hp, rfl⟩ := List.mem_map.1 this
      exact hk p hp
    have hu' := hu (ofEntries (l.map fun p => (p.1.2, wire J p.2))) (by
      intro k _
      rw [lookup_ofEntries, lookup_reverse_nodup]
      rw [List.map_map]; exact hn) (lookup_none_of_not_mem _ _ (fun e he => by rintro h; exact h2 (h ▸ hkeys e he)))
    rw [hu']
    have hunk : unknown O' fs (ofEntries (l.map fun p => (p.1.2, wire J p.2))) = [] := by
      unfold unknown
      rw [List.filter_eq_nil_iff]
      intro e he
      have := live_subset_seen fs _ (hkeys e ((O'.isPerm _).mem_iff.1 he))
      simpa using this
    have hrep : report H O' fs (ofEntries (l.map fun p => (p.1.2, wire J p.2))) = (.ok, []) := by
      unfold report
      rw [hunk]
      split <;> rfl
    simp only [uStruct, Out.done, hrep, List.append_nil]; rfl
theorem roundFields (hX : Laws X) (J : Bool) (O O' : Order) (H : Handler X) : ∀ (fs : Fields) (vs : FVals X fs), FaithfulFields J fs vs →
    (liveNames fs).Nodup → [] ∉ liveNames fs →
    ∃ l, marshalFields O fs vs = .ok l ∧ (∀ p ∈ l, p.1.2 ∈ liveNames fs) ∧ (l.map (·.1.2)).Nodup ∧
      ∀ m, (∀ k ∈ liveNames fs, lookupKey k m = lookupKey k (l.map fun p => (p.1.2, wire J p.2))) → lookupKey [] m = none →
        uFields H O' fs m (zeroFields X fs) = .done vs
  | .nil, _, _, _, _ => ⟨[], rfl, by simp, by simp, fun _ _ _ => rfl⟩
  | .cons f t fs, (v, vs), h, hn, he => by
    obtain ⟨h1, h2⟩ := h
    simp only [liveNames] at hn he
    have hn2 := (List.nodup_append.1 hn).2.1
    have he2 : [] ∉ liveNames fs := fun h => he (List.mem_append.2 (.inr h))
    obtain ⟨l, hm, hk, hd, hu⟩ := roundFields hX J O O' H fs vs h2 hn2 he2
    cases hx : f.exported with
    | false =>
      rw [hx] at h1
      simp only at h1
      subst h1
      refine ⟨l, by simp [marshalFields, hx, hm], fun p hp => by simp [liveNames, hx, hk p hp], hd, ?_⟩
      intro m hl h0
      have := hu m (fun k hk => hl k (by simp [liveNames, hx, hk])) h0
      simp [uFields, zeroFields, hx, this, Out.done]
    | true =>
      cases ht : parseTag f with
      | none => rw [hx, ht] at h1; exact h1.elim
      | some tag =>
        rw [hx, ht] at h1
        simp only at h1
        cases hsk : tag.skip with
        | true =>
          rw [hsk] at h1
          simp only [if_true] at h1
          subst h1
          have hj := skip_json f tag ht hsk
          refine ⟨l, by simp [marshalFields, hx, ht, hsk, hm], fun p hp => by simp [liveNames, hx, ht, hsk, hk p hp], hd, ?_⟩
          intro m hl h0
          have := hu m (fun k hk => hl k (by simp [liveNames, hx, ht, hsk, hk])) h0
          simp [uFields, zeroFields, hx, ht, hj, h0, this, Out.done]
        | false =>
          rw [hsk] at h1
          simp only [Bool.false_eq_true, if_false] at h1
          obtain ⟨hf, hom⟩ := h1
          obtain ⟨n, hmn, hun⟩ := round hX J O O' H t v hf
          have hlive : liveNames (.cons f t fs) = tag.json :: liveNames fs := by simp [liveNames, hx, ht, hsk]
          have hnodup : tag.json ∉ liveNames fs := by
            have this : (liveNames (.cons f t fs)).Nodup := hn
            rw [hlive] at this
            exact (List.nodup_cons.1 this).1
          cases hdrop : (tag.omitEmpty && emptyNode n) with
          | true =>
            simp only [Bool.and_eq_true] at hdrop
            have hv := hom hdrop.1 ((isEmpty_of_marshal hX J O t v n hf hmn).1 hdrop.2)
            refine ⟨l, by simp [marshalFields, hx, ht, hsk, hm, hmn, Res.bind, hdrop], fun p hp => by rw [hlive]; simp [hk p hp], hd, ?_⟩
            intro m hl h0
            have hrest := hu m (fun k hk => hl k (by rw [hlive]; simp [hk])) h0
            have hnone : lookupKey tag.json m = none := by
              rw [hl _ (by rw [hlive]; simp)]
              apply lookup_none_of_not_mem
              intro e he
              obtain ⟨p, hp, rfl⟩ := List.mem_map.1 he
              intro hh; exact hnodup (hh ▸ hk p hp)
            simp [uFields, zeroFields, hx, ht, hnone, hrest, Out.done, hv]
          | false =>
            refine ⟨((tag.name, tag.json), n) :: l, by simp [marshalFields, hx, ht, hsk, hm, hmn, Res.bind, hdrop], ?_, ?_, ?_⟩
            · intro p hp
              rw [hlive]
              rcases List.mem_cons.1 hp with rfl | hp
              · simp
              · simp [hk p hp]
            · simp only [List.map_cons, List.nodup_cons]
              refine ⟨?_, hd⟩
              intro hh
              obtain ⟨p, hp, hpe⟩ := List.mem_map.1 hh
              exact hnodup (hpe ▸ hk p hp)
            · intro m hl h0
              have hrest := hu m (fun k hk => by
                rw [hl k (by rw [hlive]; simp [hk])]
                have hne : k ≠ tag.json := by rintro rfl; exact hnodup hk
                simp [lookupKey, hne]) h0
              have hsome : lookupKey tag.json m = some (wire J n) := by
                rw [hl _ (by rw [hlive]; simp)]
                simp [lookupKey]
              simp [uFields, zeroFields, hx, ht, hsome, hun, hrest, Out.done]
end

end Verif.Enc

import Verif.Enc.TypedSpec
import Verif.Enc.JsonProps
/-!
# Lemmas about `Marshal` and `Unmarshal`
-/
set_option autoImplicit false
namespace Verif.Enc
open Verif.Strconv

/-! ### the wire -/

theorem norm_eq_nil {X : Ext} (n : Node X) (h : n.norm = .nil) : n = .nil := by
  cases n <;> simp [Node.norm] at h ⊢

theorem wire_eq_nil {X : Ext} (J : Bool) (n : Node X) (h : wire J n = .nil) : n = .nil := by
  cases J
  · exact h
  · exact norm_eq_nil n h

theorem listNorm_eq {X : Ext} (l : List (Node X)) : Node.listNorm l = l.map Node.norm := by
  induction l with
  | nil => rfl
  | cons n l ih => simp [Node.listNorm, ih]

theorem mapNorm_eq {X : Ext} (m : List (Str × Node X)) : Node.mapNorm m = m.map (fun e => (e.1, e.2.norm)) := by
  induction m with
  | nil => rfl
  | cons e m ih => obtain ⟨k, n⟩ := e; simp [Node.mapNorm, ih]

theorem pairsNorm_eq {X : Ext} (m : List ((Str × Str) × Node X)) : Node.pairsNorm m = m.map (fun e => (e.1.2, e.2.norm)) := by
  induction m with
  | nil => rfl
  | cons e m ih => obtain ⟨⟨k, k'⟩, n⟩ := e; simp [Node.pairsNorm, ih]

theorem wire_list {X : Ext} (J : Bool) (l : List (Node X)) : wire J (.list l) = .list (l.map (wire J)) := by
  cases J
  · have : wire (X := X) false = id := by funext n; rfl
    simp [this]
  · have : wire (X := X) true = Node.norm := by funext n; rfl
    simp [this, Node.norm, listNorm_eq]

theorem wire_map {X : Ext} (J : Bool) (m : List (Str × Node X)) : wire J (.map m) = .map (m.map (fun e => (e.1, wire J e.2))) := by
  cases J
  · have : wire (X := X) false = id := by funext n; rfl
    simp [this]
  · have : wire (X := X) true = Node.norm := by funext n; rfl
    simp [this, Node.norm, mapNorm_eq]

/-! ### native values -/

mutual
theorem any_round {X : Ext} (hX : Laws X) (J : Bool) : ∀ (a : Any X), a.Faithful J → (wire J a.marshal).native = a
  | .nil, _ => by cases J <;> rfl
  | .bool _, _ => by cases J <;> rfl
  | .str _, _ => by cases J <;> rfl
  | .f64 f, h => by
    cases J
    · rfl
    · obtain ⟨t, ht⟩ := Option.isSome_iff_exists.1 (h rfl)
      simp [wire, Any.marshal, Node.norm, ht, Node.native, hX.fParse_fJson f t ht]
  | .i64 i, h => by subst h; rfl
  | .list l, h => by
    simp only [Any.marshal]
    rw [wire_list]
    simp only [Node.native]
    rw [anyList_round hX J l h]
  | .map m, h => by
    simp only [Any.marshal]
    rw [wire_map]
    simp only [Node.native]
    rw [anyMap_round hX J m h.2, ofEntries_sorted m h.1]
theorem anyList_round {X : Ext} (hX : Laws X) (J : Bool) : ∀ (l : List (Any X)), Any.listFaithful J l → Node.listNative ((Any.listMarshal l).map (wire J)) = l
  | [], _ => rfl
  | a :: l, h => by
    simp only [Any.listMarshal, List.map_cons, Node.listNative]
    rw [any_round hX J a h.1, anyList_round hX J l h.2]
theorem anyMap_round {X : Ext} (hX : Laws X) (J : Bool) : ∀ (m : List (Str × Any X)), Any.mapFaithful J m →
    Node.mapNative ((Any.mapMarshal m).map (fun e => (e.1, wire J e.2))) = m
  | [], _ => rfl
  | (k, a) :: m, h => by
    simp only [Any.mapMarshal, List.map_cons, Node.mapNative]
    rw [any_round hX J a h.1, anyMap_round hX J m h.2]
end

theorem intoAny_round {X : Ext} (hX : Laws X) (J : Bool) (a : Any X) (h : a.Faithful J) : (wire J a.marshal).intoAny = a := by
  have := any_round hX J a h
  cases a with
  | time _ => exact h.elim
  | dur _ => exact h.elim
  | encTime _ => exact h.elim
  | encDur _ => exact h.elim
  | nil => cases J <;> exact this
  | bool _ => cases J <;> exact this
  | str _ => cases J <;> exact this
  | f64 _ => cases J <;> exact this
  | i64 _ => cases J <;> exact this
  | list _ => cases J <;> exact this
  | map _ => cases J <;> exact this

/-! ### nodes -/

theorem decode_text_plain {X : Ext} (hX : Laws X) (n : Node X) (h1 : n.WF) (h2 : n.plain = true) (h3 : n.encodable = true) (h4 : n.depth ≤ maxDepth) :
    decode n.text = some (some n) := C39_plain hX n h1 h2 n.text (by rw [encode, if_pos h3]) h4

theorem marshalNode_plain {X : Ext} (hX : Laws X) (n : Node X) (h1 : n.WF) (h2 : n.plain = true) (h3 : n.encodable = true) (h4 : n.depth ≤ maxDepth) :
    marshalNode n = .ok n := by
  have hd := decode_text_plain hX n h1 h2 h3 h4
  cases n with
  | str _ => rfl
  | bool _ => rfl
  | list _ => rfl
  | nil => simp only [marshalNode, h3, hd, if_true]
  | digits s => simp only [marshalNode, h3, hd, if_true]
  | map m =>
    have : Node.mapEncodable m = true := by simp only [Node.encodable, Bool.and_eq_true] at h3; exact h3.1
    simp only [marshalNode, this, hd, if_true]
  | int _ => cases h2
  | float _ => cases h2
  | pairs _ => cases h2
  | time _ => cases h2
  | dur _ => cases h2

theorem wire_plain {X : Ext} (J : Bool) (n : Node X) (h : n.plain = true) : wire J n = n := by
  cases J
  · rfl
  · exact norm_plain n h

/-- A JSON string decodes to the string: what `json.Marshaler`s that write a string become. -/
theorem decode_jsonStr {X : Ext} (s : Str) : decode (X := X) (jsonStr s) = some (some (.str s)) := by
  unfold decode
  rw [if_neg (by simp [jsonStr])]
  have := parseValue_str (X := X) (2 * (jsonStr s).length + 1) maxDepth s []
  rw [List.append_nil] at this
  have hf : fuelFor (jsonStr s) = 2 * (jsonStr s).length + 1 + 1 := rfl
  rw [hf, this]

theorem marshalNode_time {X : Ext} (t : X.T) : marshalNode (X := X) (.time t) = .ok (.str (X.tFmt t)) := by
  have := decode_jsonStr (X := X) (X.tFmt t)
  simp [marshalNode, Node.encodable, Node.text, this]

theorem marshalNode_dur {X : Ext} (d : Int) : marshalNode (X := X) (.dur d) = .ok (.str (durText X d)) := by
  have := decode_jsonStr (X := X) (durText X d)
  have ht : (Node.dur d : Node X).text = jsonStr (durText X d) := by
    simp only [Node.text, durText]; split <;> rfl
  simp [marshalNode, Node.encodable, ht, this]

/-! ### numbers -/

theorem bits_le (w : Width) : w.bits ≤ 64 := by cases w <;> decide
theorem bits_pos (w : Width) : 0 < w.bits := by cases w <;> decide

theorem toInt_range (w : Width) (v : BitVec w.bits) : -(2 ^ 63 : Int) ≤ v.toInt ∧ v.toInt < 2 ^ 63 := by
  have h1 := BitVec.le_toInt v
  have h2 := BitVec.toInt_lt (x := v)
  cases w <;> simp only [Width.bits] at * <;> omega

theorem fmtInt_no_dot (i : Int) : ∀ c ∈ fmtInt i, c ≠ '.' := by
  intro c hc
  unfold fmtInt at hc
  have hd : isDigit '.' = false := by decide
  split at hc
  · rcases List.mem_cons.1 hc with rfl | hc
    · decide
    · rintro rfl; have := fmtNat_digits _ _ hc; rw [hd] at this; cases this
  · rintro rfl; have := fmtNat_digits _ _ hc; rw [hd] at this; cases this

theorem takeWhile_all (s : Str) (h : ∀ c ∈ s, c ≠ '.') : trimDecimal s = s := by
  unfold trimDecimal
  induction s with
  | nil => rfl
  | cons c s ih =>
    rw [List.takeWhile_cons, if_pos (by simpa using h c (by simp)), ih (fun x hx => h x (by simp [hx]))]

theorem trimDecimal_fmtInt (i : Int) : trimDecimal (fmtInt i) = fmtInt i := takeWhile_all _ (fmtInt_no_dot i)

/-! ### sequences -/

/-- The result, if there is one. -/
def Res.getD {α : Type} (d : α) : Res α → α
  | .ok a => a
  | _ => d

theorem mapRes_ok {α β : Type} (d : β) (f : α → Res β) (l : List α) (h : ∀ x ∈ l, ∃ b, f x = .ok b) : mapRes f l = .ok (l.map fun x => (f x).getD d) := by
  induction l with
  | nil => rfl
  | cons x l ih =>
    obtain ⟨b, hb⟩ := h x (by simp)
    simp [mapRes, hb, Res.bind, ih (fun y hy => h y (by simp [hy])), Res.getD]

theorem uElems_ok {X : Ext} {α : Type} (f : Node X → Out X α) (l : List (Node X)) (h : ∀ n ∈ l, ∃ v, f n = .done v) :
    uElems f l = .done (l.map fun n => (f n).val) := by
  induction l with
  | nil => rfl
  | cons n l ih =>
    obtain ⟨v, hv⟩ := h n (by simp)
    simp [uElems, hv, Out.done, ih (fun y hy => h y (by simp [hy]))]

theorem uEntries_ok {X : Ext} {α : Type} (k : KTy) (f : Node X → Out X α) (l : List (Str × Node X)) (acc : List (Str × α))
    (h : ∀ e ∈ l, normKey k e.1 = some e.1 ∧ ∃ v, f e.2 = .done v) :
    uEntries k f l acc = .done ((l.map fun e => (e.1, (f e.2).val)).foldl (fun m e => insertKey e.1 e.2 m) acc) := by
  induction l generalizing acc with
  | nil => rfl
  | cons e l ih =>
    obtain ⟨key, n⟩ := e
    obtain ⟨h1, v, hv⟩ := h (key, n) (by simp)
    have := ih (insertKey key v acc) (fun y hy => h y (by simp [hy]))
    simp only [uEntries, h1]
    simp only [hv, Out.done, List.map_cons, List.foldl_cons] at this ⊢
    simp [this]

theorem lookup_isSome_of_mem {α : Type} {k : Str} {v : α} {l : List (Str × α)} (h : (k, v) ∈ l) : ∃ v', lookupKey k l = some v' := by
  induction l with
  | nil => simp at h
  | cons e l ih =>
    obtain ⟨k0, v0⟩ := e
    simp only [lookupKey]
    split
    · exact ⟨_, rfl⟩
    · rename_i hne
      rcases List.mem_cons.1 h with h | h
      · injection h with h1 h2; exact absurd h1 (by intro h; simp_all)
      · exact ih h

/-- Building a map from its entries in any order. -/
theorem ofEntries_perm {α : Type} (l m : List (Str × α)) (hp : l.Perm m) (hs : SortedKeys m) : ofEntries l = m := by
  refine sorted_ext _ _ (sorted_ofEntries l) hs ?_
  intro k
  rw [lookup_ofEntries]
  cases h : lookupKey k l.reverse with
  | some v =>
    have h1 : (k, v) ∈ m := hp.mem_iff.1 (by simpa using mem_of_lookup h)
    exact (lookup_of_mem hs h1).symm
  | none =>
    cases h2 : lookupKey k m with
    | none => rfl
    | some v =>
      have h3 : (k, v) ∈ l.reverse := by simpa using hp.mem_iff.2 (mem_of_lookup h2)
      obtain ⟨v', h4⟩ := lookup_isSome_of_mem h3
      rw [h] at h4; cases h4

theorem sorted_map_val {α β : Type} (f : Str × α → β) (m : List (Str × α)) (h : SortedKeys m) : SortedKeys (m.map fun e => (e.1, f e)) := by
  unfold SortedKeys at h ⊢
  rw [List.pairwise_map]
  exact h

end Verif.Enc

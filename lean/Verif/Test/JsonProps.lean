import Verif.Test.Json
import Verif.Enc.GrammarProps
import Verif.Enc.TypedProps
/-! # `EqualsJSON` compares documents -/
set_option autoImplicit false
namespace Verif.Test
open Verif.Strconv Verif.Enc

/-! ### decoded nodes -/

theorem mapWF_iff {X : Ext} (m : List (Str × Node X)) : Node.mapWF m ↔ ∀ e ∈ m, e.2.WF := by
  induction m with
  | nil => simp [Node.mapWF]
  | cons e m ih => obtain ⟨k, n⟩ := e; simp [Node.mapWF, ih]

theorem mapDepth_iff {X : Ext} (m : List (Str × Node X)) (d : Nat) : Node.mapDepth m ≤ d ↔ ∀ e ∈ m, e.2.depth ≤ d := by
  induction m with
  | nil => simp [Node.mapDepth]
  | cons e m ih => obtain ⟨k, n⟩ := e; simp only [Node.mapDepth, List.mem_cons, forall_eq_or_imp, ← ih]; omega

mutual
theorem val_good {X : Ext} : ∀ {d : Nat} {t : Str} {n : Node X}, JVal d t n → n.WF ∧ n.depth ≤ d
  | _, _, _, .null d => ⟨trivial, Nat.zero_le _⟩
  | _, _, _, .tru d => ⟨trivial, Nat.zero_le _⟩
  | _, _, _, .fls d => ⟨trivial, Nat.zero_le _⟩
  | _, _, _, .str d t s _ => ⟨trivial, Nat.zero_le _⟩
  | _, _, _, .num d t _ => ⟨trivial, Nat.zero_le _⟩
  | _, _, _, .noElems d w _ => ⟨trivial, by simp [Node.depth, Node.listDepth]⟩
  | _, _, _, .elems d t l h => ⟨(elems_good h).1, by have := (elems_good h).2; simp only [Node.depth]; omega⟩
  | _, _, _, .noMembers d w _ => ⟨⟨List.Pairwise.nil, trivial⟩, by simp [Node.depth, Node.mapDepth]⟩
  | _, _, _, .members d t m h => by
    have hm := members_good h
    refine ⟨⟨sorted_ofEntries m, (mapWF_iff _).2 fun e he => (hm e (mem_ofEntries m e he)).1⟩, ?_⟩
    have := (mapDepth_iff (ofEntries m) d).2 fun e he => (hm e (mem_ofEntries m e he)).2
    simp only [Node.depth]; omega
theorem elems_good {X : Ext} : ∀ {d : Nat} {t : Str} {l : List (Node X)}, JElems d t l → Node.listWF l ∧ Node.listDepth l ≤ d
  | _, _, _, .one d w t w' n _ h _ => ⟨⟨(val_good h).1, trivial⟩, by have := (val_good h).2; simp only [Node.listDepth]; omega⟩
  | _, _, _, .more d w t w' ts n l _ h _ hs =>
    ⟨⟨(val_good h).1, (elems_good hs).1⟩, by have := (val_good h).2; have := (elems_good hs).2; simp only [Node.listDepth]; omega⟩
theorem members_good {X : Ext} : ∀ {d : Nat} {t : Str} {m : List (Str × Node X)}, JMembers d t m → ∀ e ∈ m, e.2.WF ∧ e.2.depth ≤ d
  | _, _, _, .one d w k s w1 w2 t w3 n _ _ _ _ h _ => by
    intro e he
    simp only [List.mem_cons, List.not_mem_nil, or_false] at he
    subst he; exact val_good h
  | _, _, _, .more d w k s w1 w2 t w3 ts n m _ _ _ _ h _ hs => by
    intro e he
    rcases List.mem_cons.1 he with rfl | he
    · exact val_good h
    · exact members_good hs e he
end

/-- Valid JSON, by the grammar. -/
theorem document_iff {X : Ext} (s : Str) (n : Node X) :
    document s = some n ↔ ∃ w t w', s = w ++ (t ++ w') ∧ Blank w ∧ JVal maxDepth t n ∧ Blank w' := by
  constructor
  · intro h
    unfold document at h
    split at h
    · rename_i n' r hp
      split at h
      · rename_i hr
        simp only [Option.some.injEq] at h; subst h
        obtain ⟨w, t, rfl, hw, ht⟩ := (parse_sound _).1 _ _ _ _ hp
        obtain ⟨w', h1, h2⟩ := skipWs_spec r
        rw [hr, List.append_nil] at h1
        subst h1
        exact ⟨w, t, r, rfl, hw, ht, h2⟩
      · cases h
    · cases h
  · rintro ⟨w, t, w', rfl, hw, ht, hw'⟩
    have hst := stops_blank w' [] hw' trivial
    rw [List.append_nil] at hst
    unfold document
    rw [parseValue_blank w hw, val_complete ht _ w' (by simp [fuelFor]; omega) (fun _ => hst)]
    have : skipWs w' = [] := by have := skipWs_blank w' [] hw'; rw [List.append_nil] at this; exact this
    simp [this]

theorem nativeMap_eq {X : Ext} (m : List (Str × Node X)) : nativeMap m = m.map fun e => (e.1, native e.2) := by
  induction m with
  | nil => rfl
  | cons e m ih => obtain ⟨k, n⟩ := e; simp [nativeMap, ih]

theorem native_keys {X : Ext} (m : List (Str × Node X)) (h : SortedKeys m) : SortedKeys (nativeMap m) := by
  rw [nativeMap_eq, SortedKeys, List.pairwise_map]; exact h

mutual
theorem native_good {X : Ext} : ∀ (n : Node X), n.WF → (native n).WF ∧ (native n).depth = n.depth
  | .digits s, _ => by unfold native; split <;> exact ⟨trivial, rfl⟩
  | .list l, h => by
    have := nativeList_good l h
    rw [native]; exact ⟨this.1, by simp only [Node.depth, this.2]⟩
  | .map m, h => by
    have := nativeMap_good m h.2
    rw [native]; exact ⟨⟨native_keys m h.1, this.1⟩, by simp only [Node.depth, this.2]⟩
  | .nil, h => ⟨h, rfl⟩
  | .bool _, h => ⟨h, rfl⟩
  | .str _, h => ⟨h, rfl⟩
  | .int _, h => ⟨h, rfl⟩
  | .float _, h => ⟨h, rfl⟩
  | .pairs _, h => ⟨h, rfl⟩
  | .time _, h => ⟨h, rfl⟩
  | .dur _, h => ⟨h, rfl⟩
theorem nativeList_good {X : Ext} : ∀ (l : List (Node X)), Node.listWF l → Node.listWF (nativeList l) ∧ Node.listDepth (nativeList l) = Node.listDepth l
  | [], _ => ⟨trivial, rfl⟩
  | n :: l, h => by
    have h1 := native_good n h.1; have h2 := nativeList_good l h.2
    exact ⟨⟨h1.1, h2.1⟩, by simp only [nativeList, Node.listDepth, h1.2, h2.2]⟩
theorem nativeMap_good {X : Ext} : ∀ (m : List (Str × Node X)), Node.mapWF m → Node.mapWF (nativeMap m) ∧ Node.mapDepth (nativeMap m) = Node.mapDepth m
  | [], _ => ⟨trivial, rfl⟩
  | (k, n) :: l, h => by
    have h1 := native_good n h.1; have h2 := nativeMap_good l h.2
    exact ⟨⟨h1.1, h2.1⟩, by simp only [nativeMap, Node.mapDepth, h1.2, h2.2]⟩
end

/-! ### nodes without `enc.Pairs` -/

mutual
/-- No struct was marshalled: members are sorted by key everywhere. -/
def NoPairs {X : Ext} : Node X → Prop
  | .list l => NoPairsL l
  | .map m => NoPairsM m
  | .pairs _ => False
  | _ => True
def NoPairsL {X : Ext} : List (Node X) → Prop
  | [] => True
  | n :: l => NoPairs n ∧ NoPairsL l
def NoPairsM {X : Ext} : List (Str × Node X) → Prop
  | [] => True
  | (_, n) :: l => NoPairs n ∧ NoPairsM l
end

mutual
theorem norm_text {X : Ext} : ∀ (n : Node X), NoPairs n → n.norm.text = n.text
  | .list l, h => by simp only [Node.norm, Node.text, norm_listText l h]
  | .map m, h => by simp only [Node.norm, Node.text, norm_mapText m h]
  | .pairs _, h => h.elim
  | .dur d, _ => by simp only [Node.norm, Node.text]; split <;> rfl
  | .nil, _ => rfl
  | .bool _, _ => rfl
  | .str _, _ => rfl
  | .int _, _ => rfl
  | .float _, _ => rfl
  | .digits _, _ => rfl
  | .time _, _ => rfl
theorem norm_listText {X : Ext} : ∀ (l : List (Node X)), NoPairsL l → Node.listText (Node.listNorm l) = Node.listText l
  | [], _ => rfl
  | [n], h => by simp only [Node.listNorm, Node.listText, norm_text n h.1]
  | n :: m :: l, h => by
    have h2 := norm_listText (m :: l) h.2
    simp only [Node.listNorm] at h2
    simp only [Node.listNorm, Node.listText, norm_text n h.1, h2]
theorem norm_mapText {X : Ext} : ∀ (l : List (Str × Node X)), NoPairsM l → Node.mapText (Node.mapNorm l) = Node.mapText l
  | [], _ => rfl
  | [(k, n)], h => by simp only [Node.mapNorm, Node.mapText, norm_text n h.1]
  | (k, n) :: (k', m) :: l, h => by
    have h2 := norm_mapText ((k', m) :: l) h.2
    simp only [Node.mapNorm] at h2
    simp only [Node.mapNorm, Node.mapText, norm_text n h.1, h2]
end

mutual
theorem val_noPairs {X : Ext} : ∀ {d : Nat} {t : Str} {n : Node X}, JVal d t n → NoPairs (native n)
  | _, _, _, .null d => trivial
  | _, _, _, .tru d => trivial
  | _, _, _, .fls d => trivial
  | _, _, _, .str d t s _ => trivial
  | _, _, _, .num d t _ => by unfold native; split <;> trivial
  | _, _, _, .noElems d w _ => trivial
  | _, _, _, .elems d t l h => by rw [native]; exact elems_noPairs h
  | _, _, _, .noMembers d w _ => trivial
  | _, _, _, .members d t m h => by
    rw [native, NoPairs]
    have hm := members_noPairs h
    have key : ∀ (l : List (Str × Node X)), (∀ e ∈ l, NoPairs (native e.2)) → NoPairsM (nativeMap l) := by
      intro l
      induction l with
      | nil => intro _; trivial
      | cons e l ih =>
        intro hl
        obtain ⟨k, n⟩ := e
        exact ⟨hl (k, n) (by simp), ih fun e he => hl e (by simp [he])⟩
    exact key _ fun e he => hm e (mem_ofEntries m e he)
theorem elems_noPairs {X : Ext} : ∀ {d : Nat} {t : Str} {l : List (Node X)}, JElems d t l → NoPairsL (nativeList l)
  | _, _, _, .one d w t w' n _ h _ => ⟨val_noPairs h, trivial⟩
  | _, _, _, .more d w t w' ts n l _ h _ hs => ⟨val_noPairs h, elems_noPairs hs⟩
theorem members_noPairs {X : Ext} : ∀ {d : Nat} {t : Str} {m : List (Str × Node X)}, JMembers d t m → ∀ e ∈ m, NoPairs (native e.2)
  | _, _, _, .one d w k s w1 w2 t w3 n _ _ _ _ h _ => by
    intro e he
    simp only [List.mem_cons, List.not_mem_nil, or_false] at he
    subst he; exact val_noPairs h
  | _, _, _, .more d w k s w1 w2 t w3 ts n m _ _ _ _ h _ hs => by
    intro e he
    rcases List.mem_cons.1 he with rfl | he
    · exact val_noPairs h
    · exact members_noPairs hs e he
end

/-! ### the property -/

/-- What an argument that is not a string may be: any well-formed node within the nesting limit. -/
def JArg.Fine {X : Ext} : JArg X → Prop
  | .text _ => True
  | .value (.ok n) => n.WF ∧ n.depth ≤ maxDepth
  | .value (.error _) => True

theorem node_fine {X : Ext} (a : JArg X) (h : a.Fine) (n : Node X) (hn : a.node = some n) : n.WF ∧ n.depth ≤ maxDepth ∧ jsonish a = encode n := by
  cases a with
  | text s =>
    simp only [JArg.node] at hn
    cases hd : document (X := X) s with
    | none =>
      rw [hd] at hn; simp only [Option.some.injEq] at hn; subst hn
      exact ⟨trivial, Nat.zero_le _, by simp only [jsonish, hd]⟩
    | some m =>
      rw [hd] at hn; simp only [Option.some.injEq] at hn; subst hn
      obtain ⟨_, _, _, _, _, hv, _⟩ := (document_iff s m).1 hd
      obtain ⟨h1, h2⟩ := val_good hv
      obtain ⟨h3, h4⟩ := native_good m h1
      exact ⟨h3, by rw [h4]; exact h2, by simp only [jsonish, hd]⟩
  | value r =>
    cases r with
    | error e => cases hn
    | ok m =>
      simp only [JArg.node, Option.some.injEq] at hn; subst hn
      exact ⟨h.1, h.2, rfl⟩

theorem equalJSON_ok {X : Ext} (a b : JArg X) (r : Res) (h : equalJSON a b = .ok r) :
    ∃ e g, jsonish a = .ok e ∧ jsonish b = .ok g ∧ (r.succeed = true ↔ e = g) := by
  unfold equalJSON at h
  cases ha : jsonish a with
  | error p => rw [ha] at h; cases h
  | ok e =>
    cases hb : jsonish b with
    | error p => rw [ha, hb] at h; cases h
    | ok g =>
      rw [ha, hb] at h
      injection h with h
      subst h
      refine ⟨e, g, rfl, rfl, ?_⟩
      unfold equal
      split <;> simp_all

/-- C115: when both arguments can be marshalled, success means that they are the same document: the same JSON value once numbers, times and structs are
written as JSON. -/
theorem C115_success_means_same {X : Ext} (hX : Laws X) (a b : JArg X) (ha : a.Fine) (hb : b.Fine) (n m : Node X) (hn : a.node = some n)
    (hm : b.node = some m) (r : Res) (h : equalJSON a b = .ok r) (hs : r.succeed = true) : n.norm = m.norm := by
  obtain ⟨e, g, he, hg, hr⟩ := equalJSON_ok a b r h
  obtain ⟨w1, d1, j1⟩ := node_fine a ha n hn
  obtain ⟨w2, d2, j2⟩ := node_fine b hb m hm
  rw [j1] at he; rw [j2] at hg
  have h1 := C39_round_trip hX n w1 e he d1
  have h2 := C39_round_trip hX m w2 g hg d2
  rw [hr.1 hs, h2] at h1
  simpa using h1.symm

/-- The same documents are always found equal when no struct was marshalled. -/
theorem C115_partial {X : Ext} (hX : Laws X) (a b : JArg X) (ha : a.Fine) (hb : b.Fine) (n m : Node X) (hn : a.node = some n)
    (hm : b.node = some m) (np : NoPairs n) (mp : NoPairs m) (r : Res) (h : equalJSON a b = .ok r) : r.succeed = true ↔ n.norm = m.norm := by
  refine ⟨C115_success_means_same hX a b ha hb n m hn hm r h, fun heq => ?_⟩
  obtain ⟨e, g, he, hg, hr⟩ := equalJSON_ok a b r h
  obtain ⟨_, _, j1⟩ := node_fine a ha n hn
  obtain ⟨_, _, j2⟩ := node_fine b hb m hm
  rw [j1] at he; rw [j2] at hg
  unfold encode at he hg
  split at he <;> split at hg
  · injection he with he; injection hg with hg
    rw [hr, ← he, ← hg, ← norm_text n np, ← norm_text m mp, heq]
  all_goals first | (cases hg; done) | (cases he; done)

/-- Two texts holding JSON: equal exactly when they mean the same, whatever the white space, the order of the members, the escapes and the spelling of
the numbers. -/
theorem C115_texts_partial {X : Ext} (hX : Laws X) (s s' : Str) (n m : Node X) (hs : document s = some n) (hs' : document s' = some m) (r : Res)
    (h : equalJSON (X := X) (.text s) (.text s') = .ok r) : r.succeed = true ↔ (native n).norm = (native m).norm := by
  obtain ⟨_, _, _, _, _, v1, _⟩ := (document_iff s n).1 hs
  obtain ⟨_, _, _, _, _, v2, _⟩ := (document_iff s' m).1 hs'
  exact C115_partial hX (.text s) (.text s') trivial trivial _ _ (by simp only [JArg.node, hs]) (by simp only [JArg.node, hs'])
    (val_noPairs v1) (val_noPairs v2) r h

/-- Violated for structs: a struct is written in the order of its fields, a text in the order of its keys, so a struct `{B, A}` is not equal to the very
text it marshals to. -/
theorem C115_struct_violated : ∃ (n : Node XT) (s : Str) (r : Res), encode n = .ok s ∧ document s = some n.norm ∧
    equalJSON (.value (.ok n)) (.text s) = .ok r ∧ r.succeed = false := by
  have h : (equalJSON (X := XT) (.value (.ok (.pairs [((lit "B", lit "b"), .bool true), ((lit "A", lit "a"), .nil)])))
      (.text (lit "{\"b\":true,\"a\":null}"))).toOption.map (·.succeed) = some false := by decide +kernel
  refine ⟨.pairs [((lit "B", lit "b"), .bool true), ((lit "A", lit "a"), .nil)], lit "{\"b\":true,\"a\":null}", ?_⟩
  obtain ⟨o, ho⟩ : ∃ o, equalJSON (X := XT) (.value (.ok (.pairs [((lit "B", lit "b"), .bool true), ((lit "A", lit "a"), .nil)])))
      (.text (lit "{\"b\":true,\"a\":null}")) = o := ⟨_, rfl⟩
  rw [ho] at h
  cases o with
  | error p => cases h
  | ok r => exact ⟨r, by decide +kernel, by decide +kernel, ho, by simpa [Except.toOption] using h⟩

/-- Violated for values that cannot be marshalled: two errors with the same text are equal, whatever the values were. -/
theorem C115_failed_violated {X : Ext} (e : Str) : ∃ r, equalJSON (X := X) (.value (.error e)) (.value (.error e)) = .ok r ∧ r.succeed = true :=
  ⟨_, rfl, by simp [equal]⟩

/-- Violated for numbers that are not a `float64`: a text whose number is out of range equals the text `null`. -/
theorem C115_range_violated {X : Ext} (t : Str) (ht : JNum t) (hp : X.fParse t = none) :
    ∃ r, equalJSON (X := X) (.text t) (.text (lit "null")) = .ok r ∧ r.succeed = true := by
  have h1 : document (X := X) t = some (.digits t) :=
    (document_iff _ _).2 ⟨[], t, [], by simp, blank_nil, .num _ t ht, blank_nil⟩
  have h2 : document (X := X) (lit "null") = some .nil := (document_iff _ _).2 ⟨[], lit "null", [], by simp, blank_nil, .null _, blank_nil⟩
  refine ⟨_, by simp only [equalJSON, jsonish, h1, h2, native, hp]; rfl, by simp [equal]⟩

/-- Numbers are compared as `float64`: two texts with the same float are equal, even when the digits are not the same number. -/
theorem C115_precision_violated {X : Ext} (t u : Str) (ht : JNum t) (hu : JNum u) (f : X.F) (j : Str) (hf : X.fJson f = some j) (h1 : X.fParse t = some f) (h2 : X.fParse u = some f) :
    ∃ r, equalJSON (X := X) (.text t) (.text u) = .ok r ∧ r.succeed = true := by
  have d1 : document (X := X) t = some (.digits t) := (document_iff _ _).2 ⟨[], t, [], by simp, blank_nil, .num _ t ht, blank_nil⟩
  have d2 : document (X := X) u = some (.digits u) := (document_iff _ _).2 ⟨[], u, [], by simp, blank_nil, .num _ u hu, blank_nil⟩
  refine ⟨_, by simp only [equalJSON, jsonish, d1, d2, native, h1, h2, encode, Node.encodable, hf, Option.isSome_some, if_true]; rfl, by simp [equal]⟩

/-- Spacing, order and escapes do not matter; a different value does. -/
example : (equalJSON (X := XT) (.text (lit " {\"b\":[1.5, null],\"a\":\"x\"} ")) (.text (lit "{\"\\u0061\":\"x\",\"b\":[1.5,null]}"))).toOption.map (·.succeed) = some true ∧
    (equalJSON (X := XT) (.text (lit "[1.5]")) (.text (lit "[0]"))).toOption.map (·.succeed) = some false ∧
    (equalJSON (X := XT) (.text (lit "{\"a\":0}")) (.value (.ok (.map [(lit "a", .int 0)])))).toOption.map (·.succeed) = some true := by decide +kernel

end Verif.Test

import Verif.Enc.RoundLemmas
/-!
# Marshalled values are well formed and encodable
-/
set_option autoImplicit false
namespace Verif.Enc
open Verif.Strconv
variable {X : Ext}

/-- Well formed, and encodable unless nested too deep. -/
def Good (n : Node X) : Prop := n.WF ∧ (n.depth ≤ maxDepth → n.encodable = true)

theorem good_list (l : List (Node X)) (h : ∀ n ∈ l, Good n) : Good (.list l) := by
  have key : Node.listWF l ∧ (Node.listDepth l ≤ maxDepth → Node.listEncodable l = true) := by
    induction l with
    | nil => exact ⟨trivial, fun _ => rfl⟩
    | cons n l ih =>
      obtain ⟨h1, h2⟩ := ih (fun m hm => h m (List.mem_cons_of_mem _ hm))
      obtain ⟨h3, h4⟩ := h n List.mem_cons_self
      refine ⟨⟨h3, h1⟩, fun hd => ?_⟩
      have hd : max n.depth (Node.listDepth l) ≤ maxDepth := hd
      simp only [Node.listEncodable, h4 (by omega), h2 (by omega), Bool.and_self]
  refine ⟨key.1, fun hd => key.2 ?_⟩
  have hd : Node.listDepth l + 1 ≤ maxDepth := hd
  omega

theorem good_map (m : List (Str × Node X)) (hs : SortedKeys m) (h : ∀ e ∈ m, Good e.2) : Good (.map m) := by
  have key : Node.mapWF m ∧ (Node.mapDepth m ≤ maxDepth → Node.mapEncodable m = true) := by
    clear hs
    induction m with
    | nil => exact ⟨trivial, fun _ => rfl⟩
    | cons e m ih =>
      obtain ⟨h1, h2⟩ := ih (fun m hm => h m (List.mem_cons_of_mem _ hm))
      obtain ⟨h3, h4⟩ := h e List.mem_cons_self
      obtain ⟨k, n⟩ := e
      refine ⟨⟨h3, h1⟩, fun hd => ?_⟩
      have hd : max n.depth (Node.mapDepth m) ≤ maxDepth := hd
      simp only [Node.mapEncodable, h4 (show n.depth ≤ maxDepth by omega), h2 (by omega), Bool.and_self]
  refine ⟨⟨hs, key.1⟩, fun hd => ?_⟩
  have hd : Node.mapDepth m + 1 ≤ maxDepth := hd
  simp only [Node.encodable, key.2 (by omega), hd, decide_true, Bool.and_self]

theorem good_pairs (m : List ((Str × Str) × Node X)) (h : ∀ e ∈ m, Good e.2) : Good (.pairs m) := by
  have key : Node.pairsWF m ∧ (Node.pairsDepth m ≤ maxDepth → Node.pairsEncodable m = true) := by
    induction m with
    | nil => exact ⟨trivial, fun _ => rfl⟩
    | cons e m ih =>
      obtain ⟨h1, h2⟩ := ih (fun m hm => h m (List.mem_cons_of_mem _ hm))
      obtain ⟨h3, h4⟩ := h e List.mem_cons_self
      obtain ⟨k, n⟩ := e
      refine ⟨⟨h3, h1⟩, fun hd => ?_⟩
      have hd : max n.depth (Node.pairsDepth m) ≤ maxDepth := hd
      simp only [Node.pairsEncodable, h4 (show n.depth ≤ maxDepth by omega), h2 (by omega), Bool.and_self]
  refine ⟨key.1, fun hd => ?_⟩
  have hd : Node.pairsDepth m + 1 ≤ maxDepth := hd
  simp only [Node.encodable, key.2 (by omega), hd, decide_true, Bool.and_self]

theorem anyMap_keys (m : List (Str × Any X)) : (Any.mapMarshal m) = m.map fun e => (e.1, e.2.marshal) := by
  induction m with
  | nil => rfl
  | cons e m ih => obtain ⟨k, a⟩ := e; simp [Any.mapMarshal, ih]

mutual
theorem any_good : ∀ (a : Any X), a.Faithful true → Good a.marshal
  | .nil, _ => ⟨trivial, fun _ => rfl⟩
  | .bool _, _ => ⟨trivial, fun _ => rfl⟩
  | .str _, _ => ⟨trivial, fun _ => rfl⟩
  | .f64 f, h => ⟨trivial, fun _ => h rfl⟩
  | .i64 _, h => by simp [Any.Faithful] at h
  | .list l, h => good_list _ (anyList_good l h)
  | .map m, h => by
    refine good_map _ ?_ (anyMap_good m h.2)
    rw [anyMap_keys]
    exact sorted_map_val _ m h.1
  | .time _, h => h.elim
  | .dur _, h => h.elim
  | .encTime _, h => h.elim
  | .encDur _, h => h.elim
theorem anyList_good : ∀ (l : List (Any X)), Any.listFaithful true l → ∀ n ∈ Any.listMarshal l, Good n
  | [], _ => by simp [Any.listMarshal]
  | a :: l, h => by
    intro n hn
    simp only [Any.listMarshal, List.mem_cons] at hn
    rcases hn with rfl | hn
    · exact any_good a h.1
    · exact anyList_good l h.2 n hn
theorem anyMap_good : ∀ (m : List (Str × Any X)), Any.mapFaithful true m → ∀ e ∈ Any.mapMarshal m, Good e.2
  | [], _ => by simp [Any.mapMarshal]
  | (k, a) :: m, h => by
    intro n hn
    simp only [Any.mapMarshal, List.mem_cons] at hn
    rcases hn with rfl | hn
    · exact any_good a h.1
    · exact anyMap_good m h.2 n hn
end

theorem mapRes_mem {α β : Type} (f : α → Res β) (l : List α) (bs : List β) (h : mapRes f l = .ok bs) : ∀ b ∈ bs, ∃ a ∈ l, f a = .ok b := by
  induction l generalizing bs with
  | nil => injection h with h; subst h; simp
  | cons a l ih =>
    simp only [mapRes] at h
    obtain ⟨b, hb, h⟩ := bind_ok h
    obtain ⟨bs', hbs, h⟩ := bind_ok h
    injection h with h; subst h
    intro c hc
    rcases List.mem_cons.1 hc with rfl | hc
    · exact ⟨a, List.mem_cons_self, hb⟩
    · obtain ⟨a', ha', h'⟩ := ih bs' hbs c hc
      exact ⟨a', List.mem_cons_of_mem _ ha', h'⟩

mutual
theorem marshal_good (hX : Laws X) (O : Order) : ∀ (t : Ty) (v : Val X t) (n : Node X), Faithful true t v → marshal O t v = .ok n → Good n
  | .bool, v, n, _, h => by simp only [marshal] at h; injection h with h; subst h; exact ⟨trivial, fun _ => rfl⟩
  | .int w, v, n, _, h => by simp only [marshal] at h; injection h with h; subst h; exact ⟨trivial, fun _ => rfl⟩
  | .uint w, v, n, _, h => by simp only [marshal] at h; injection h with h; subst h; exact ⟨trivial, fun _ => rfl⟩
  | .float64, v, n, hf, h => by simp only [marshal] at h; injection h with h; subst h; exact ⟨trivial, fun _ => hf rfl⟩
  | .float32, v, n, hf, h => by simp only [marshal] at h; injection h with h; subst h; exact ⟨trivial, fun _ => hf.2 rfl⟩
  | .string, v, n, _, h => by simp only [marshal] at h; injection h with h; subst h; exact ⟨trivial, fun _ => rfl⟩
  | .any, v, n, hf, h => by simp only [marshal] at h; injection h with h; subst h; exact any_good _ hf
  | .node, v, n, hf, h => by
    obtain ⟨m, hm, h1, h2, h3, h4⟩ := hf
    have hm : v = some m := hm
    subst hm
    simp only [marshal, marshalNode_plain hX m h1 h2 h3 h4] at h
    injection h with h; subst h
    exact ⟨h1, fun _ => h3⟩
  | .time, v, n, _, h => by simp only [marshal] at h; injection h with h; subst h; exact ⟨trivial, fun _ => rfl⟩
  | .encTime, v, n, _, h => by simp only [marshal] at h; injection h with h; subst h; exact ⟨trivial, fun _ => rfl⟩
  | .encDur, v, n, _, h => by simp only [marshal] at h; injection h with h; subst h; exact ⟨trivial, fun _ => rfl⟩
  | .func, v, n, hf, h => hf.elim
  | .chan, v, n, hf, h => hf.elim
  | .iface, v, n, _, h => by simp only [marshal] at h; injection h with h; subst h; exact ⟨trivial, fun _ => rfl⟩
  | .ptr t, v, n, hf, h => by
    match v, hf, h with
    | none, hf, h =>
      have hf : t.valueMarshaler = false := hf
      simp only [marshal, hf] at h
      injection h with h; subst h; exact ⟨trivial, fun _ => rfl⟩
    | some x, hf, h =>
      simp only [marshal] at h
      rcases ptrFix_ok t _ n h with h | ⟨y, hy, hm, ht⟩
      · exact marshal_good hX O t x n hf.1 h
      · subst ht
        simp only [marshal] at hy
        injection hy with hy; subst hy
        have hm := (marshalNode_time (X := X) x).symm.trans hm
        injection hm with hm; subst hm
        exact ⟨trivial, fun _ => rfl⟩
  | .slice t, v, n, hf, h => by
    match v, hf, h with
    | none, hf, h => simp only [marshal] at h; injection h with h; subst h; exact ⟨trivial, fun _ => rfl⟩
    | some l, hf, h =>
      have hf : ∀ x ∈ l, Faithful true t x := hf
      simp only [marshal] at h
      obtain ⟨ns, hns, h⟩ := bind_ok h
      injection h with h; subst h
      refine good_list ns fun n hn => ?_
      obtain ⟨x, hx, hm⟩ := mapRes_mem _ _ _ hns n hn
      exact marshal_good hX O t x n (hf x hx) hm
  | .array k t, v, n, hf, h => by
    obtain ⟨l, hl⟩ := v
    have hf : ∀ x ∈ l, Faithful true t x := hf
    simp only [marshal] at h
    obtain ⟨ns, hns, h⟩ := bind_ok h
    injection h with h; subst h
    refine good_list ns fun n hn => ?_
    obtain ⟨x, hx, hm⟩ := mapRes_mem _ _ _ hns n hn
    exact marshal_good hX O t x n (hf x hx) hm
  | .map k t, v, n, hf, h => by
    match v, hf, h with
    | none, hf, h => simp only [marshal] at h; injection h with h; subst h; exact ⟨trivial, fun _ => rfl⟩
    | some m, hf, h =>
      obtain ⟨_, hf⟩ := (hf : SortedKeys m ∧ ∀ e ∈ m, normKey k e.1 = some e.1 ∧ Faithful true t e.2)
      simp only [marshal] at h
      obtain ⟨ns, hns, h⟩ := bind_ok h
      injection h with h; subst h
      refine good_map _ (sorted_ofEntries _) fun e he => ?_
      obtain ⟨x, hx, hm⟩ := mapRes_mem _ _ _ hns e (mem_ofEntries _ _ he)
      obtain ⟨y, hy, hm⟩ := bind_ok hm
      split at hm
      · cases hm
      · injection hm with hm; subst hm
        exact marshal_good hX O t x.2 _ (hf x ((O.isPerm _).mem_iff.1 hx)).2 hy
  | .struct fs, v, n, hf, h => by
    simp only [marshal] at h
    obtain ⟨ns, hns, h⟩ := bind_ok h
    injection h with h; subst h
    exact good_pairs ns (marshalFields_good hX O fs v ns hf.2.2 hns)
theorem marshalFields_good (hX : Laws X) (O : Order) : ∀ (fs : Fields) (v : FVals X fs) (l : List ((Str × Str) × Node X)), FaithfulFields true fs v →
    marshalFields O fs v = .ok l → ∀ e ∈ l, Good e.2
  | .nil, _, l, _, h => by simp only [marshalFields] at h; injection h with h; subst h; simp
  | .cons f t fs, (v, vs), l, hf, h => by
    obtain ⟨h1, h2⟩ := hf
    simp only [marshalFields] at h
    cases hx : f.exported with
    | false =>
      rw [hx] at h
      exact marshalFields_good hX O fs vs l h2 h
    | true =>
      cases ht : parseTag f with
      | none => rw [hx, ht] at h1; exact h1.elim
      | some tag =>
        rw [hx, ht] at h1 h
        simp only at h1 h
        cases hsk : tag.skip with
        | true =>
          rw [hsk] at h
          exact marshalFields_good hX O fs vs l h2 h
        | false =>
          rw [hsk] at h h1
          simp only [Bool.false_eq_true, if_false, if_true] at h1 h
          obtain ⟨n, hn, h⟩ := bind_ok h
          obtain ⟨l', hl', h⟩ := bind_ok h
          injection h with h
          have hrec := marshalFields_good hX O fs vs l' h2 hl'
          have hg := marshal_good hX O t v n h1.1 hn
          subst h
          intro e he
          split at he
          · exact hrec e he
          · rcases List.mem_cons.1 he with rfl | he
            · exact hg
            · exact hrec e he
end

end Verif.Enc

import Verif.Enc.HeapProps
/-!
# What the node made by `Marshal` shares with the value (enc/handler.go L170-318), C163

`hMarshal` is `marshal` with the memory of Enc/Heap.lean. What `Marshal` reads of slices, maps, pointers and `any`s is their contents, which it does not change, so values are as in
Enc/Types.lean, except that nodes in them are given together with where their parts are. The lists, maps and pairs it makes are new cells; a node made by decoding a JSON text is new too.
When it fails there is no node, and what was made until then can not be reached.
-/
set_option autoImplicit false
namespace Verif.Enc.Heap
open Verif.Strconv Verif.Enc

mutual
/-- The values of a type, with the addresses of the parts of the nodes in them. enc/handler.go L175-318. -/
def NVal (X : Ext) : Ty → Type
  | .bool => Bool
  | .int w => BitVec w.bits
  | .uint w => BitVec w.bits
  | .float64 => X.F
  | .float32 => X.F
  | .string => Str
  | .any => Any X
  | .node => Option (LNode X)
  | .time => X.T
  | .encTime => X.T
  | .encDur => Int
  | .func => Option Nat
  | .chan => Option Nat
  | .iface => Unit
  | .ptr t => Option (NVal X t)
  | .slice t => Option (List (NVal X t))
  | .array n t => { l : List (NVal X t) // l.length = n }
  | .map _ v => Option (List (Str × NVal X v))
  | .struct fs => NFVals X fs
/-- enc/handler.go L277-316. -/
def NFVals (X : Ext) : Fields → Type
  | .nil => Unit
  | .cons _ t fs => NVal X t × NFVals X fs
end

mutual
/-- the value. enc/handler.go L175-318. -/
def nerase {X : Ext} : (t : Ty) → NVal X t → Val X t
  | .bool, v => v
  | .int _, v => v
  | .uint _, v => v
  | .float64, v => v
  | .float32, v => v
  | .string, v => v
  | .any, v => v
  | .node, v => (Option.map LNode.erase v : Option (Node X))
  | .time, v => v
  | .encTime, v => v
  | .encDur, v => v
  | .func, v => v
  | .chan, v => v
  | .iface, v => v
  | .ptr t, v => (Option.map (nerase t) v : Option (Val X t))
  | .slice t, v => (Option.map (List.map (nerase t)) v : Option (List (Val X t)))
  | .array n t, v => (⟨v.val.map (nerase t), by rw [List.length_map]; exact v.property⟩ : { l : List (Val X t) // l.length = n })
  | .map _ t, v => (Option.map (List.map fun e => (e.1, nerase t e.2)) v : Option (List (Str × Val X t)))
  | .struct fs, v => neraseF fs v
/-- enc/handler.go L277-316. -/
def neraseF {X : Ext} : (fs : Fields) → NFVals X fs → FVals X fs
  | .nil, _ => ()
  | .cons _ t fs, (v, vs) => (nerase t v, neraseF fs vs)
end

mutual
/-- The memory holds the nodes in the value where they are said to be, in cells `Q`. enc/handler.go L196-197. -/
def NHolds {X : Ext} (Q : Nat → Prop) (m : Mem X) : (t : Ty) → NVal X t → Prop
  | .node, v => ∀ n, (v : Option (LNode X)) = some n → Holds Q m n
  | .ptr t, v => ∀ x, (v : Option (NVal X t)) = some x → NHolds Q m t x
  | .slice t, v => ∀ l, (v : Option (List (NVal X t))) = some l → ∀ x ∈ l, NHolds Q m t x
  | .array _ t, v => ∀ x ∈ v.val, NHolds Q m t x
  | .map _ t, v => ∀ l, (v : Option (List (Str × NVal X t))) = some l → ∀ e ∈ l, NHolds Q m t e.2
  | .struct fs, v => NHoldsF Q m fs v
  | .bool, _ | .int _, _ | .uint _, _ | .float64, _ | .float32, _ | .string, _ | .any, _ | .time, _ | .encTime, _ | .encDur, _ | .func, _ | .chan, _
  | .iface, _ => True
/-- enc/handler.go L277-316. -/
def NHoldsF {X : Ext} (Q : Nat → Prop) (m : Mem X) : (fs : Fields) → NFVals X fs → Prop
  | .nil, _ => True
  | .cons _ t fs, (v, vs) => NHolds Q m t v ∧ NHoldsF Q m fs vs
end

mutual
/-- A node in new cells, as `JSON.Decode` makes it. enc/json.go L74-86, enc/enc.go L62-78. -/
def place {X : Ext} : Node X → Mem X → LNode X × Mem X
  | .list l, m => let r := placeL l m; (.list r.2.length r.1, r.2 ++ [.nodes (r.1.map LNode.top)])
  | .map l, m => let r := placeM l m; (.map r.2.length r.1, r.2 ++ [.nodeMap (r.1.map fun e => (e.1, e.2.top))])
  | .pairs l, m => let r := placeP l m; (.pairs r.2.length r.1, r.2 ++ [.nodePairs (r.1.map fun e => (e.1, e.2.top))])
  | .nil, m => (.leaf .nil, m)
  | .bool b, m => (.leaf (.bool b), m)
  | .str s, m => (.leaf (.str s), m)
  | .int i, m => (.leaf (.int i), m)
  | .float f, m => (.leaf (.float f), m)
  | .digits s, m => (.leaf (.digits s), m)
  | .time t, m => (.leaf (.time t), m)
  | .dur d, m => (.leaf (.dur d), m)
/-- enc/json.go L74-86, enc/enc.go L62-78. -/
def placeL {X : Ext} : List (Node X) → Mem X → List (LNode X) × Mem X
  | [], m => ([], m)
  | n :: l, m => let r := place n m; let rs := placeL l r.2; (r.1 :: rs.1, rs.2)
/-- enc/json.go L74-86, enc/enc.go L62-78. -/
def placeM {X : Ext} : List (Str × Node X) → Mem X → List (Str × LNode X) × Mem X
  | [], m => ([], m)
  | (k, n) :: l, m => let r := place n m; let rs := placeM l r.2; ((k, r.1) :: rs.1, rs.2)
/-- enc/json.go L74-86, enc/enc.go L62-78. -/
def placeP {X : Ext} : List ((Str × Str) × Node X) → Mem X → List ((Str × Str) × LNode X) × Mem X
  | [], m => ([], m)
  | (k, n) :: l, m => let r := place n m; let rs := placeP l r.2; ((k, r.1) :: rs.1, rs.2)
end

/-- a new node, if there is one. enc/handler.go L190-195. -/
def placeRes {X : Ext} (m : Mem X) : Res (Node X) → Res (LNode X × Mem X)
  | .ok n => .ok (place n m)
  | .err => .err
  | .panic => .panic

/-- `Marshal` of a node: a `List` is returned itself, others that are not scalars are written and decoded (enc/handler.go L190-197). -/
def hMarshalNode {X : Ext} (n : LNode X) (m : Mem X) : Res (LNode X × Mem X) :=
  match n with
  | .list a l => .ok (.list a l, m)
  | n => placeRes m (marshalNode n.erase)

/-- Elements one after the other, stopping at the first failure (enc/handler.go L228-238). -/
def hMapRes {X : Ext} {α β : Type} (f : α → Mem X → Res (β × Mem X)) : List α → Mem X → Res (List β × Mem X)
  | [], m => .ok ([], m)
  | a :: l, m => (f a m).bind fun r => (hMapRes f l r.2).bind fun rs => .ok (r.1 :: rs.1, rs.2)

/-- The order in which the entries of maps are visited, `O` with the addresses of the nodes in them. enc/handler.go L244. -/
structure VOrder (X : Ext) (O : Order) where
  perm : (t : Ty) → List (Str × NVal X t) → List (Str × NVal X t)
  isPerm : ∀ t l, (perm t l).Perm l
  agrees : ∀ t l, (perm t l).map (fun e => (e.1, nerase t e.2)) = O.perm (l.map fun e => (e.1, nerase t e.2))

/-- A pointer to `time.Time` goes through JSON. enc/handler.go L183-195, L218-222. -/
def hPtrFix {X : Ext} : Ty → Res (LNode X × Mem X) → Res (LNode X × Mem X)
  | .time, .ok (n, m) => placeRes m (marshalNode n.erase)
  | _, r => r

/-- A new list. enc/handler.go L229-238. -/
def newList {X : Ext} (r : List (LNode X) × Mem X) : LNode X × Mem X := (.list r.2.length r.1, r.2 ++ [.nodes (r.1.map LNode.top)])
/-- A new map. enc/handler.go L243-272. -/
def newMap {X : Ext} (r : List (Str × LNode X) × Mem X) : LNode X × Mem X :=
  (.map r.2.length (ofEntries r.1), r.2 ++ [.nodeMap ((ofEntries r.1).map fun e => (e.1, e.2.top))])
/-- New pairs. enc/handler.go L277-317. -/
def newPairs {X : Ext} (r : List ((Str × Str) × LNode X) × Mem X) : LNode X × Mem X :=
  (.pairs r.2.length r.1, r.2 ++ [.nodePairs (r.1.map fun e => (e.1, e.2.top))])

mutual
/-- `Handler.Marshal` (enc/handler.go L175-318) with the memory. -/
def hMarshal {X : Ext} {O : Order} (V : VOrder X O) : (t : Ty) → NVal X t → Mem X → Res (LNode X × Mem X)
  | .bool, v, m => placeRes m (marshal O .bool v)
  | .int w, v, m => placeRes m (marshal O (.int w) v)
  | .uint w, v, m => placeRes m (marshal O (.uint w) v)
  | .float64, v, m => placeRes m (marshal O .float64 v)
  | .float32, v, m => placeRes m (marshal O .float32 v)
  | .string, v, m => placeRes m (marshal O .string v)
  | .any, v, m => placeRes m (marshal O .any v)
  | .node, v, m => match (v : Option (LNode X)) with
    | none => .ok (.leaf .nil, m)
    | some n => hMarshalNode n m
  | .time, v, m => placeRes m (marshal O .time v)
  | .encTime, v, m => placeRes m (marshal O .encTime v)
  | .encDur, v, m => placeRes m (marshal O .encDur v)
  | .func, v, m => placeRes m (marshal O .func v)
  | .chan, v, m => placeRes m (marshal O .chan v)
  | .iface, v, m => placeRes m (marshal O .iface v)
  | .ptr t, v, m => match (v : Option (NVal X t)) with
    | none => if t.valueMarshaler then .panic else .ok (.leaf .nil, m)
    | some x => hPtrFix t (hMarshal V t x m)
  | .slice t, v, m => match (v : Option (List (NVal X t))) with
    | none => .ok (.leaf .nil, m)
    | some l => (hMapRes (hMarshal V t) l m).bind fun r => .ok (newList r)
  | .array n t, v, m => (hMapRes (hMarshal V t) (v : { l : List (NVal X t) // l.length = n }).1 m).bind fun r => .ok (newList r)
  | .map k t, v, m => match (v : Option (List (Str × NVal X t))) with
    | none => .ok (.leaf .nil, m)
    | some l => (hMapRes (fun e m => (hMarshal V t e.2 m).bind fun r => if k = .other then .err else .ok ((e.1, r.1), r.2)) (V.perm t l) m).bind fun r =>
        .ok (newMap r)
  | .struct fs, v, m => (hMarshalFields V fs v m).bind fun r => .ok (newPairs r)
/-- the fields of a struct (enc/handler.go L277-317) -/
def hMarshalFields {X : Ext} {O : Order} (V : VOrder X O) : (fs : Fields) → NFVals X fs → Mem X → Res (List ((Str × Str) × LNode X) × Mem X)
  | .nil, _, m => .ok ([], m)
  | .cons f t fs, (v, vs), m =>
    if f.exported then
      match parseTag f with
      | none => .panic
      | some tag =>
        if tag.skip then hMarshalFields V fs vs m
        else (hMarshal V t v m).bind fun r => (hMarshalFields V fs vs r.2).bind fun rs =>
          .ok (if tag.omitEmpty && emptyNode r.1.erase then rs.1 else ((tag.name, tag.json), r.1) :: rs.1, rs.2)
    else hMarshalFields V fs vs m
end

/-! ## Lemmas -/

mutual
theorem place_ok {X : Ext} : ∀ (n : Node X) (m : Mem X), m <+: (place n m).2 ∧ Holds (From m.length) (place n m).2 (place n m).1 ∧ (place n m).1.erase = n
  | .list l, m => by
    obtain ⟨p, h, e⟩ := placeL_ok l m
    have q : (placeL l m).2 <+: (placeL l m).2 ++ [.nodes ((placeL l m).1.map LNode.top)] := List.prefix_append ..
    exact ⟨p.trans q, ⟨prefix_len p, get_snoc _ _, holdsL_mono (keeps_prefix q fun _ x => x) _ h⟩, by simp only [place, LNode.erase, e]⟩
  | .map l, m => by
    obtain ⟨p, h, e⟩ := placeM_ok l m
    have q : (placeM l m).2 <+: (placeM l m).2 ++ [.nodeMap ((placeM l m).1.map fun e => (e.1, e.2.top))] := List.prefix_append ..
    exact ⟨p.trans q, ⟨prefix_len p, get_snoc _ _, holdsM_mono (keeps_prefix q fun _ x => x) _ h⟩, by simp only [place, LNode.erase, e]⟩
  | .pairs l, m => by
    obtain ⟨p, h, e⟩ := placeP_ok l m
    have q : (placeP l m).2 <+: (placeP l m).2 ++ [.nodePairs ((placeP l m).1.map fun e => (e.1, e.2.top))] := List.prefix_append ..
    exact ⟨p.trans q, ⟨prefix_len p, get_snoc _ _, holdsP_mono (keeps_prefix q fun _ x => x) _ h⟩, by simp only [place, LNode.erase, e]⟩
  | .nil, _ | .bool _, _ | .str _, _ | .int _, _ | .float _, _ | .digits _, _ | .time _, _ | .dur _, _ => ⟨List.prefix_rfl, rfl, rfl⟩
theorem placeL_ok {X : Ext} : ∀ (l : List (Node X)) (m : Mem X), m <+: (placeL l m).2 ∧ HoldsL (From m.length) (placeL l m).2 (placeL l m).1 ∧ eraseL (placeL l m).1 = l
  | [], _ => ⟨List.prefix_rfl, trivial, rfl⟩
  | n :: l, m => by
    obtain ⟨p, h, e⟩ := place_ok n m
    obtain ⟨p', h', e'⟩ := placeL_ok l (place n m).2
    exact ⟨p.trans p', ⟨holds_mono (keeps_prefix p' fun _ x => x) _ h, holdsL_mono (keeps_prefix List.prefix_rfl fun _ x => Nat.le_trans (prefix_len p) x) _ h'⟩,
      by simp only [placeL, eraseL, e, e']⟩
theorem placeM_ok {X : Ext} : ∀ (l : List (Str × Node X)) (m : Mem X), m <+: (placeM l m).2 ∧ HoldsM (From m.length) (placeM l m).2 (placeM l m).1 ∧ eraseM (placeM l m).1 = l
  | [], _ => ⟨List.prefix_rfl, trivial, rfl⟩
  | (_, n) :: l, m => by
    obtain ⟨p, h, e⟩ := place_ok n m
    obtain ⟨p', h', e'⟩ := placeM_ok l (place n m).2
    exact ⟨p.trans p', ⟨holds_mono (keeps_prefix p' fun _ x => x) _ h, holdsM_mono (keeps_prefix List.prefix_rfl fun _ x => Nat.le_trans (prefix_len p) x) _ h'⟩,
      by simp only [placeM, eraseM, e, e']⟩
theorem placeP_ok {X : Ext} : ∀ (l : List ((Str × Str) × Node X)) (m : Mem X), m <+: (placeP l m).2 ∧ HoldsP (From m.length) (placeP l m).2 (placeP l m).1 ∧ eraseP (placeP l m).1 = l
  | [], _ => ⟨List.prefix_rfl, trivial, rfl⟩
  | (_, n) :: l, m => by
    obtain ⟨p, h, e⟩ := place_ok n m
    obtain ⟨p', h', e'⟩ := placeP_ok l (place n m).2
    exact ⟨p.trans p', ⟨holds_mono (keeps_prefix p' fun _ x => x) _ h, holdsP_mono (keeps_prefix List.prefix_rfl fun _ x => Nat.le_trans (prefix_len p) x) _ h'⟩,
      by simp only [placeP, eraseP, e, e']⟩
end

/-- Both succeed, with results in this relation, or both fail alike. -/
def RR {α β : Type} (r : α → β → Prop) : Res α → Res β → Prop
  | .ok a, .ok b => r a b
  | .err, .err => True
  | .panic, .panic => True
  | _, _ => False

theorem RR.bind {α β γ δ : Type} {r : α → β → Prop} {s : γ → δ → Prop} {a : Res α} {b : Res β} {f : α → Res γ} {g : β → Res δ} (h : RR r a b)
    (hf : ∀ x y, r x y → RR s (f x) (g y)) : RR s (a.bind f) (b.bind g) := by
  cases a <;> cases b <;> first | exact h.elim | trivial | exact hf _ _ h

theorem RR.imp {α β : Type} {r s : α → β → Prop} {a : Res α} {b : Res β} (h : RR r a b) (i : ∀ x y, r x y → s x y) : RR s a b := by
  cases a <;> cases b <;> first | exact h.elim | trivial | exact i _ _ h

/-- The node that is to be made, and is in old cells `Q` or new ones. -/
def Made {X : Ext} (Q : Nat → Prop) (m : Mem X) (r : LNode X × Mem X) (n : Node X) : Prop :=
  m <+: r.2 ∧ Holds (Or2 Q (From m.length)) r.2 r.1 ∧ r.1.erase = n

theorem made_place {X : Ext} {Q : Nat → Prop} (m : Mem X) (n : Node X) : Made Q m (place n m) n := by
  obtain ⟨p, h, e⟩ := place_ok n m
  exact ⟨p, holds_mono (keeps_prefix List.prefix_rfl fun _ => .inr) _ h, e⟩

theorem made_res {X : Ext} {Q : Nat → Prop} (m : Mem X) : ∀ r : Res (Node X), RR (Made Q m) (placeRes m r) r
  | .ok n => made_place m n
  | .err => trivial
  | .panic => trivial

theorem made_leaf {X : Ext} {Q : Nat → Prop} (m : Mem X) (n : Node X) (h : scalarNode n = true) : Made Q m (.leaf n, m) n := ⟨List.prefix_rfl, h, rfl⟩

theorem made_node {X : Ext} {Q : Nat → Prop} (n : LNode X) (m : Mem X) (h : Holds Q m n) : RR (Made Q m) (hMarshalNode n m) (marshalNode n.erase) := by
  cases n with
  | list a l => exact ⟨List.prefix_rfl, holds_mono (keep_old List.prefix_rfl) (.list a l) h, rfl⟩
  | leaf n => exact made_res m _
  | map a l => exact made_res m _
  | pairs a l => exact made_res m _

/-- lists of results. -/
def MadeL {X : Ext} {α β : Type} (erase : α → β) (hold : (Nat → Prop) → Mem X → α → Prop) (Q : Nat → Prop) (m : Mem X) (r : List α × Mem X) (l : List β) : Prop :=
  m <+: r.2 ∧ (∀ x ∈ r.1, hold (Or2 Q (From m.length)) r.2 x) ∧ r.1.map erase = l

/-- one of them. -/
def Made1 {X : Ext} {α β : Type} (erase : α → β) (hold : (Nat → Prop) → Mem X → α → Prop) (Q : Nat → Prop) (m : Mem X) (r : α × Mem X) (b : β) : Prop :=
  m <+: r.2 ∧ hold (Or2 Q (From m.length)) r.2 r.1 ∧ erase r.1 = b

theorem mapRes_ok {X : Ext} {α α' β β' : Type} {Q : Nat → Prop} (er : α → α') (N : Mem X → α → Prop) (erase : β → β') (hold : (Nat → Prop) → Mem X → β → Prop)
    (mono : ∀ P P' (m m' : Mem X) b, Keeps P P' m m' → hold P m b → hold P' m' b) (nmono : ∀ (m m' : Mem X) a, m <+: m' → N m a → N m' a)
    (f : α → Mem X → Res (β × Mem X)) (g : α' → Res β')
    (F : ∀ a m, (∀ x, Q x → x < m.length) → N m a → RR (Made1 erase hold Q m) (f a m) (g (er a))) :
    ∀ (l : List α) (m : Mem X), (∀ x, Q x → x < m.length) → (∀ a ∈ l, N m a) → RR (MadeL erase hold Q m) (hMapRes f l m) (mapRes g (l.map er))
  | [], m, _, _ => ⟨List.prefix_rfl, fun _ h => (nomatch h), rfl⟩
  | a :: l, m, q, h => by
    simp only [hMapRes, List.map_cons, mapRes]
    refine RR.bind (F a m q (h a (by simp))) fun r b ⟨p, hr, er'⟩ => ?_
    have q' : ∀ x, Q x → x < r.2.length := fun x hx => Nat.lt_of_lt_of_le (q x hx) (prefix_len p)
    refine RR.bind (mapRes_ok er N erase hold mono nmono f g F l r.2 q' fun x hx => nmono m r.2 x p (h x (by simp [hx]))) fun rs bs ⟨p', hs, es⟩ => ?_
    refine ⟨p.trans p', ?_, by simp [er', es]⟩
    intro x hx
    rcases List.mem_cons.1 hx with rfl | hx
    · exact mono _ _ _ _ _ (keeps_prefix p' fun _ y => y) hr
    · exact mono _ _ _ _ _ (keeps_prefix List.prefix_rfl fun _ y => y.imp id fun z => Nat.le_trans (prefix_len p) z) (hs x hx)

theorem holdsL_iff {X : Ext} {Q : Nat → Prop} {m : Mem X} : ∀ l : List (LNode X), HoldsL Q m l ↔ ∀ e ∈ l, Holds Q m e
  | [] => ⟨fun _ _ h => (nomatch h), fun _ => trivial⟩
  | n :: l => by simp only [HoldsL, List.mem_cons, forall_eq_or_imp, holdsL_iff l]

theorem holdsP_iff {X : Ext} {Q : Nat → Prop} {m : Mem X} : ∀ l : List ((Str × Str) × LNode X), HoldsP Q m l ↔ ∀ e ∈ l, Holds Q m e.2
  | [] => ⟨fun _ _ h => (nomatch h), fun _ => trivial⟩
  | (k, n) :: l => by simp only [HoldsP, List.mem_cons, forall_eq_or_imp, holdsP_iff l]

theorem newList_ok {X : Ext} {Q : Nat → Prop} (m : Mem X) (r : List (LNode X) × Mem X) (l : List (Node X)) (h : MadeL LNode.erase Holds Q m r l) :
    Made Q m (newList r) (.list l) := by
  obtain ⟨p, h, e⟩ := h
  have q : r.2 <+: r.2 ++ [.nodes (r.1.map LNode.top)] := List.prefix_append ..
  exact ⟨p.trans q, ⟨.inr (prefix_len p), get_snoc _ _, holdsL_mono (keeps_prefix q fun _ x => x) _ ((holdsL_iff _).2 h)⟩,
    by simp only [newList, LNode.erase, eraseL_map, e]⟩

theorem newMap_ok {X : Ext} {Q : Nat → Prop} (m : Mem X) (r : List (Str × LNode X) × Mem X) (l : List (Str × Node X))
    (h : MadeL (fun e => (e.1, e.2.erase)) (fun P m e => Holds P m e.2) Q m r l) : Made Q m (newMap r) (.map (ofEntries l)) := by
  obtain ⟨p, h, e⟩ := h
  have q : r.2 <+: r.2 ++ [.nodeMap ((ofEntries r.1).map fun e => (e.1, e.2.top))] := List.prefix_append ..
  refine ⟨p.trans q, ⟨.inr (prefix_len p), get_snoc _ _, holdsM_mono (keeps_prefix q fun _ x => x) _ ((holdsM_iff _).2 fun x hx => h x (mem_ofEntries _ _ hx))⟩, ?_⟩
  have x : ∀ a : List (Str × LNode X), Ents (fun (a : LNode X) (b : Node X) => a.erase = b) a (a.map fun e => (e.1, e.2.erase)) := by
    intro a
    induction a with
    | nil => exact .nil
    | cons e l ih => exact .cons ⟨rfl, rfl⟩ ih
  have g : ∀ (a : List (Str × LNode X)) (b : List (Str × Node X)), Ents (fun (a : LNode X) (b : Node X) => a.erase = b) a b → eraseM a = b := by
    intro a b x
    induction x with
    | nil => rfl
    | @cons p q l l' pq t ih =>
      obtain ⟨k, n⟩ := p; obtain ⟨k', n'⟩ := q; obtain ⟨e, f⟩ := pq
      simp only at e f
      simp only [eraseM, ih, e, f]
  have := g _ _ (Ents.ofEntries (x r.1))
  simp only [newMap, LNode.erase, this, ← e]

theorem newPairs_ok {X : Ext} {Q : Nat → Prop} (m : Mem X) (r : List ((Str × Str) × LNode X) × Mem X) (l : List ((Str × Str) × Node X))
    (h : MadeL (fun e => (e.1, e.2.erase)) (fun P m e => Holds P m e.2) Q m r l) : Made Q m (newPairs r) (.pairs l) := by
  obtain ⟨p, h, e⟩ := h
  have q : r.2 <+: r.2 ++ [.nodePairs (r.1.map fun e => (e.1, e.2.top))] := List.prefix_append ..
  exact ⟨p.trans q, ⟨.inr (prefix_len p), get_snoc _ _, holdsP_mono (keeps_prefix q fun _ x => x) _ ((holdsP_iff _).2 h)⟩,
    by simp only [newPairs, LNode.erase, eraseP_map, e]⟩

mutual
theorem nholds_mono {X : Ext} {P P' : Nat → Prop} {m m' : Mem X} (K : Keeps P P' m m') : ∀ (t : Ty) (v : NVal X t), NHolds P m t v → NHolds P' m' t v
  | .node, _, h => fun n e => holds_mono K n (h n e)
  | .ptr t, _, h => fun x e => nholds_mono K t x (h x e)
  | .slice t, _, h => fun l e x hx => nholds_mono K t x (h l e x hx)
  | .array _ t, _, h => fun x hx => nholds_mono K t x (h x hx)
  | .map _ t, _, h => fun l e x hx => nholds_mono K t x.2 (h l e x hx)
  | .struct fs, v, h => nholdsF_mono K fs v h
  | .bool, _, _ | .int _, _, _ | .uint _, _, _ | .float64, _, _ | .float32, _, _ | .string, _, _ | .any, _, _ | .time, _, _ | .encTime, _, _ | .encDur, _, _ | .func, _, _
  | .chan, _, _ | .iface, _, _ => trivial
theorem nholdsF_mono {X : Ext} {P P' : Nat → Prop} {m m' : Mem X} (K : Keeps P P' m m') : ∀ (fs : Fields) (v : NFVals X fs), NHoldsF P m fs v → NHoldsF P' m' fs v
  | .nil, _, _ => trivial
  | .cons _ t fs, (v, vs), ⟨h, hs⟩ => ⟨nholds_mono K t v h, nholdsF_mono K fs vs hs⟩
end

mutual
theorem nholds_free {X : Ext} {P : Nat → Prop} {m : Mem X} : ∀ (t : Ty) (v : NVal X t), NodeFree t = true → NHolds P m t v
  | .ptr t, _, h => fun x _ => nholds_free t x h
  | .slice t, _, h => fun _ _ x _ => nholds_free t x h
  | .array _ t, _, h => fun x _ => nholds_free t x h
  | .map _ t, _, h => fun _ _ x _ => nholds_free t x.2 h
  | .struct fs, v, h => nholdsF_free fs v h
  | .bool, _, _ | .int _, _, _ | .uint _, _, _ | .float64, _, _ | .float32, _, _ | .string, _, _ | .any, _, _ | .time, _, _ | .encTime, _, _ | .encDur, _, _ | .func, _, _
  | .chan, _, _ | .iface, _, _ => trivial
theorem nholdsF_free {X : Ext} {P : Nat → Prop} {m : Mem X} : ∀ (fs : Fields) (v : NFVals X fs), NodeFreeF fs = true → NHoldsF P m fs v
  | .nil, _, _ => trivial
  | .cons _ t fs, (v, vs), h => by
    simp only [NodeFreeF, Bool.and_eq_true] at h
    exact ⟨nholds_free t v h.1, nholdsF_free fs vs h.2⟩
end

theorem ptrFix_ok {X : Ext} {Q : Nat → Prop} (t : Ty) (m : Mem X) (r : Res (LNode X × Mem X)) (o : Res (Node X)) (h : RR (Made Q m) r o) :
    RR (Made Q m) (hPtrFix t r) (ptrFix t o) := by
  cases t with
  | time =>
    cases r <;> cases o <;> first | exact h.elim | trivial | skip
    rename_i r n
    obtain ⟨p, h, e⟩ := h
    simp only [hPtrFix, ptrFix, e]
    refine (made_res (Q := Q) r.2 (marshalNode n)).imp fun x y ⟨p', h', e'⟩ => ⟨p.trans p', holds_mono (keeps_prefix List.prefix_rfl fun _ z => z.imp id fun w => Nat.le_trans (prefix_len p) w) _ h', e'⟩
  | _ => exact h

mutual
theorem mar_ok {X : Ext} {O : Order} {Q : Nat → Prop} (V : VOrder X O) : ∀ (t : Ty) (v : NVal X t) (m : Mem X), (∀ a, Q a → a < m.length) → NHolds Q m t v →
    RR (Made Q m) (hMarshal V t v m) (marshal O t (nerase t v))
  | .bool, v, m, _, _ => made_res m _
  | .int _, v, m, _, _ => made_res m _
  | .uint _, v, m, _, _ => made_res m _
  | .float64, v, m, _, _ => made_res m _
  | .float32, v, m, _, _ => made_res m _
  | .string, v, m, _, _ => made_res m _
  | .any, v, m, _, _ => made_res m _
  | .time, v, m, _, _ => made_res m _
  | .encTime, v, m, _, _ => made_res m _
  | .encDur, v, m, _, _ => made_res m _
  | .func, v, m, _, _ => made_res m _
  | .chan, v, m, _, _ => made_res m _
  | .iface, v, m, _, _ => made_res m _
  | .node, none, m, _, _ => made_leaf m .nil rfl
  | .node, some n, m, _, h => made_node n m (h n rfl)
  | .ptr t, none, m, _, _ => by
    show RR (Made Q m) (if t.valueMarshaler then Res.panic else .ok (.leaf .nil, m)) (if t.valueMarshaler then Res.panic else .ok .nil)
    split
    · trivial
    · exact made_leaf m .nil rfl
  | .ptr t, some x, m, q, h => ptrFix_ok t m _ _ (mar_ok V t x m q (h x rfl))
  | .slice t, none, m, _, _ => made_leaf m .nil rfl
  | .slice t, some l, m, q, h =>
    RR.bind (mapRes_ok (nerase t) (fun m a => NHolds Q m t a) LNode.erase Holds (fun _ _ _ _ b K => holds_mono K b) (fun _ _ a p => nholds_mono (keeps_prefix p fun _ x => x) t a)
      (hMarshal V t) (marshal O t) (fun a m q h => mar_ok V t a m q h) l m q (h l rfl)) fun r l h => newList_ok m r l h
  | .array _ t, v, m, q, h =>
    RR.bind (mapRes_ok (nerase t) (fun m a => NHolds Q m t a) LNode.erase Holds (fun _ _ _ _ b K => holds_mono K b) (fun _ _ a p => nholds_mono (keeps_prefix p fun _ x => x) t a)
      (hMarshal V t) (marshal O t) (fun a m q h => mar_ok V t a m q h) v.val m q h) fun r l h => newList_ok m r l h
  | .map _ t, none, m, _, _ => made_leaf m .nil rfl
  | .map k t, some l, m, q, h => by
    have := mapRes_ok (Q := Q) (fun e : Str × NVal X t => (e.1, nerase t e.2)) (fun m e => NHolds Q m t e.2) (fun e : Str × LNode X => (e.1, e.2.erase)) (fun P m e => Holds P m e.2)
      (fun _ _ _ _ b K => holds_mono K b.2) (fun _ _ a p => nholds_mono (keeps_prefix p fun _ x => x) t a.2)
      (fun e m => (hMarshal V t e.2 m).bind fun r => if k = .other then .err else .ok ((e.1, r.1), r.2))
      (fun e => (marshal O t e.2).bind fun n => if k = .other then .err else .ok (e.1, n))
      (fun a m q h => RR.bind (mar_ok V t a.2 m q h) fun r n ⟨p, h, e⟩ => by
        split
        · trivial
        · exact ⟨p, h, by simp [e]⟩) (V.perm t l) m q (fun a ha => h l rfl a ((V.isPerm t l).mem_iff.1 ha))
    rw [V.agrees] at this
    exact RR.bind this fun r l h => newMap_ok m r l h
  | .struct fs, v, m, q, h => RR.bind (marF_ok V fs v m q h) fun r l h => newPairs_ok m r l h
theorem marF_ok {X : Ext} {O : Order} {Q : Nat → Prop} (V : VOrder X O) : ∀ (fs : Fields) (v : NFVals X fs) (m : Mem X), (∀ a, Q a → a < m.length) → NHoldsF Q m fs v →
    RR (MadeL (fun e : (Str × Str) × LNode X => (e.1, e.2.erase)) (fun P m e => Holds P m e.2) Q m) (hMarshalFields V fs v m) (marshalFields O fs (neraseF fs v))
  | .nil, _, m, _, _ => ⟨List.prefix_rfl, fun _ h => (nomatch h), rfl⟩
  | .cons f t fs, (v, vs), m, q, ⟨h, hs⟩ => by
    simp only [hMarshalFields, neraseF, marshalFields]
    split
    · cases parseTag f with
      | none => trivial
      | some tag =>
        simp only
        split
        · exact marF_ok V fs vs m q hs
        · refine RR.bind (mar_ok V t v m q h) fun r n ⟨p, hr, e⟩ => ?_
          have q' : ∀ x, Q x → x < r.2.length := fun x hx => Nat.lt_of_lt_of_le (q x hx) (prefix_len p)
          refine RR.bind (marF_ok V fs vs r.2 q' (nholdsF_mono (keeps_prefix p fun _ x => x) fs vs hs)) fun rs l ⟨p', hs', es⟩ => ?_
          have keep : ∀ x ∈ rs.1, Holds (Or2 Q (From m.length)) rs.2 x.2 := fun x hx =>
            holds_mono (keeps_prefix List.prefix_rfl fun _ y => y.imp id fun z => Nat.le_trans (prefix_len p) z) x.2 (hs' x hx)
          rw [e]
          split
          · exact ⟨p.trans p', keep, es⟩
          · refine ⟨p.trans p', ?_, by simp [e, es]⟩
            intro x hx
            rcases List.mem_cons.1 hx with rfl | hx
            · exact holds_mono (keeps_prefix p' fun _ y => y) r.1 hr
            · exact keep x hx
    · exact marF_ok V fs vs m q hs
end

/-- Every order of the entries of maps is one of their located entries. -/
theorem vorder_exists (X : Ext) (O : Order) : Nonempty (VOrder X O) := by
  have h : ∀ t (l : List (Str × NVal X t)), ∃ l' : List (Str × NVal X t), l'.Perm l ∧ l'.map (fun e => (e.1, nerase t e.2)) = O.perm (l.map fun e => (e.1, nerase t e.2)) :=
    fun t l => perm_lift (fun e : Str × NVal X t => (e.1, nerase t e.2)) (O.isPerm _).symm l rfl
  exact ⟨⟨fun t l => (h t l).choose, fun t l => (h t l).choose_spec.1, fun t l => (h t l).choose_spec.2⟩⟩

/-! ## C163 -/

section
variable {X : Ext} {O : Order} (V : VOrder X O)

/-- **C163.** With a memory, `Marshal` makes the node it makes of the value, or fails alike, writes nothing that was there before, and the node is in new cells, apart from those of nodes in the value. -/
theorem C163_refines (t : Ty) (Q : Nat → Prop) (v : NVal X t) (m : Mem X) (hq : ∀ a, Q a → a < m.length) (hv : NHolds Q m t v) :
    match hMarshal V t v m, marshal O t (nerase t v) with
    | .ok (n, m'), .ok n' => n.erase = n' ∧ (∀ a, a < m.length → m'[a]? = m[a]?) ∧ NReads (fun a => Q a ∨ m.length ≤ a) m' n.top n'
    | .err, .err => True
    | .panic, .panic => True
    | _, _ => False := by
  have := mar_ok V t v m hq hv
  revert this
  generalize hMarshal V t v m = r
  generalize marshal O t (nerase t v) = o
  intro h
  rcases r with ⟨n, m'⟩ | _ | _ <;> rcases o with n' | _ | _ <;> first | exact h.elim | trivial | skip
  obtain ⟨p, h, e⟩ := h
  refine ⟨e, fun a ha => ?_, ?_⟩
  · obtain ⟨s, e⟩ := p
    simp only at e
    rw [← e, List.getElem?_append_left ha]
  · have := holds_reads n h
    rw [e] at this
    exact this

/-- **C163, without nodes.** The node made of a value of a type without nodes is its own: whatever is done later to the value, or to anything else that was there before, does not change it.
Missing: types with nodes, for which it is not so. -/
theorem C163_own_partial (t : Ty) (hf : NodeFree t = true) (v : NVal X t) (m : Mem X) (n : LNode X) (m' : Mem X) (h : hMarshal V t v m = .ok (n, m')) (later : Mem X)
    (hl : ∀ a, m.length ≤ a → a < m'.length → later[a]? = m'[a]?) :
    ∃ n', marshal O t (nerase t v) = .ok n' ∧ NReads (fun a => m.length ≤ a ∧ a < m'.length) later n.top n' := by
  have := mar_ok (Q := fun _ => False) V t v m (fun _ h => h.elim) (nholds_free t v hf)
  rw [h] at this
  revert this
  generalize marshal O t (nerase t v) = o
  intro x
  rcases o with n' | _ | _ <;> first | exact x.elim | skip
  obtain ⟨p, h, e⟩ := x
  refine ⟨n', rfl, ?_⟩
  have := holds_reads n h
  rw [e] at this
  refine nreads_mono ?_ _ _ this
  intro a c pa ea
  have lo : m.length ≤ a := pa.elim False.elim id
  have hi : a < m'.length := (List.getElem?_eq_some_iff.1 ea).1
  exact ⟨⟨lo, hi⟩, by rw [hl a lo hi]; exact ea⟩

/-- **C163, without nodes.** Marshalling a value and unmarshalling the node makes a copy: it shares nothing with the value, the node, or anything else.
Missing: types with nodes, for which it is not so. -/
theorem C163_copy_partial (H : Handler X) (L : LOrder X O) (t u : Ty) (hf : NodeFree t = true) (hu : NodeFree u = true) (v : NVal X t) (m : Mem X) (n : LNode X) (m' : Mem X)
    (h : hMarshal V t v m = .ok (n, m')) :
    let r := hUnmarshal H L u n (hZero X u) m'
    m <+: m' ∧ m' <+: r.mem ∧ ∃ n', marshal O t (nerase t v) = .ok n' ∧
      ∀ later : Mem X, (∀ a, m'.length ≤ a → a < r.mem.length → later[a]? = r.mem[a]?) →
        Reads (fun a => m'.length ≤ a ∧ a < r.mem.length) (fun _ => False) later u r.val (unmarshal H O u n' (zero X u)).val := by
  intro r
  have := mar_ok (Q := fun _ => False) V t v m (fun _ h => h.elim) (nholds_free t v hf)
  rw [h] at this
  revert this
  generalize marshal O t (nerase t v) = o
  intro x
  rcases o with n' | _ | _ <;> first | exact x.elim | skip
  obtain ⟨p, hn, e⟩ := x
  have hn' : Holds (fun a => a < m'.length) m' n := holds_mono (fun a c _ e => ⟨(List.getElem?_eq_some_iff.1 e).1, e⟩) n hn
  obtain ⟨p', _, _, _⟩ := un_ok H L u (fun _ => False) (fun _ => False) n (hZero X u) (zero X u) m' (fun _ h => h) hn' (zero_reads _ _ m' u)
  refine ⟨p, p', n', rfl, ?_⟩
  rw [← e]
  exact C162_own_partial H L u hu _ n m' (fun _ h => h) hn'

/-- **C163.** Nodes that are no lists are copied with all they contain: the result is in new cells. -/
theorem C163_map_copied (n : LNode X) (hl : ∀ a l, n ≠ .list a l) (Q : Nat → Prop) (m : Mem X) (hn : Holds Q m n) (n' : LNode X) (m' : Mem X)
    (h : hMarshal V .node (some n : Option (LNode X)) m = .ok (n', m')) :
    marshalNode n.erase = .ok n'.erase ∧ (∀ a, a < m.length → m'[a]? = m[a]?) ∧ NReads (fun a => m.length ≤ a) m' n'.top n'.erase := by
  have key : placeRes m (marshalNode n.erase) = .ok (n', m') := by
    cases n with
    | list a l => exact absurd rfl (hl a l)
    | _ => exact h
  have := made_res (Q := fun _ => False) m (marshalNode n.erase)
  rw [key] at this
  revert this
  generalize marshalNode n.erase = o
  intro x
  rcases o with x' | _ | _ <;> first | exact x.elim | skip
  obtain ⟨p, h, e⟩ := x
  refine ⟨by rw [e], fun a ha => ?_, holds_reads n' (holds_mono (keeps_prefix List.prefix_rfl fun _ y => y.elim False.elim id) n' h)⟩
  obtain ⟨s, e⟩ := p
  simp only at e
  rw [← e, List.getElem?_append_left ha]

/-- **C163, violated.** A list is not copied: emptying the list in the value empties the node made of it before, and the other way round. -/
theorem C163_list_violated (a : Nat) (l : List (LNode X)) (m : Mem X) (ha : a < m.length) :
    hMarshal V .node (some (.list a l) : Option (LNode X)) m = .ok (.list a l, m) ∧
    NReads (· = a) (m.set a (.nodes [])) (LNode.list a l).top (.list []) :=
  ⟨rfl, rfl, [], by simp [ha], trivial⟩

/-- **C163, violated.** So a value made of it, as in a test, shares the list with the one it was made of: emptying it in one empties it in both. -/
theorem C163_test_violated (H : Handler X) (L : LOrder X O) (a : Nat) (l : List (LNode X)) (m : Mem X) (ha : a < m.length) :
    ∃ n m', hMarshal V .node (some (.list a l) : Option (LNode X)) m = .ok (n, m') ∧
      let r := hUnmarshal H L .node n (none : Option (HNode X)) m'
      Reads (fun _ => False) (· = a) (r.mem.set a (.nodes [])) .node r.val (some (.list [])) :=
  ⟨_, _, rfl, C162_list_violated H L _ l a none m ha rfl⟩

/-- A struct with a slice and a node field: the list made of the slice is new, that of the node is not. -/
example : hMarshal V (.struct exTy) ((some [lit "x"] : Option (List Str)), (some (.list 1 [.leaf (.str (lit "a"))]) : Option (LNode X)), ()) exMem =
    .ok (.pairs 4 [((lit "S", lit "S"), .list 3 [.leaf (.str (lit "x"))]), ((lit "N", lit "N"), .list 1 [.leaf (.str (lit "a"))])],
      exMem ++ [.nodes [.leaf (.str (lit "x"))], .nodePairs [((lit "S", lit "S"), .list 3), ((lit "N", lit "N"), .list 1)]]) := by
  have t1 : parseTag { name := lit "S" } = some ⟨lit "S", lit "S", false, false⟩ := by decide +kernel
  have t2 : parseTag { name := lit "N" } = some ⟨lit "N", lit "N", false, false⟩ := by decide +kernel
  simp only [hMarshal, exTy, hMarshalFields, t1, t2, if_true]
  rfl

end

/-- A struct without nodes, and one with a list of nodes; values with parts are no scalars. -/
example {X : Ext} : NodeFree (.struct (.cons { name := lit "S" } (.slice .string) .nil)) = true ∧ NodeFree (.struct (.cons { name := lit "N" } (.slice .node) .nil)) = false ∧
    scalarAny (X := X) (.list []) = false ∧ scalarAny (X := X) (.map []) = false ∧ scalarAny (X := X) (.str []) = true := ⟨by decide, by decide, rfl, rfl, rfl⟩

end Verif.Enc.Heap

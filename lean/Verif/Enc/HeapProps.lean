import Verif.Enc.Heap
import Verif.Enc.RoundLemmas
/-!
# `Unmarshal` writes its variable and nothing else, and its result shares nothing but nodes (C162)
-/
set_option autoImplicit false
namespace Verif.Enc.Heap
open Verif.Strconv Verif.Enc

/-! ## Lemmas -/

/-- What is seen of one memory is there in the other, in the cells allowed there. enc/handler.go L43-160. -/
def Keeps {X : Ext} (P P' : Nat → Prop) (m m' : Mem X) : Prop := ∀ a c, P a → m[a]? = some c → P' a ∧ m'[a]? = some c

mutual
theorem nreads_mono {X : Ext} {P P' : Nat → Prop} {m m' : Mem X} (K : Keeps P P' m m') : ∀ (n : Node X) (h : HNode X), NReads P m h n → NReads P' m' h n
  | .list l, .list a => by
    intro ⟨p, hs, e, r⟩; have := K a _ p e; exact ⟨this.1, hs, this.2, nreadsL_mono K l hs r⟩
  | .map l, .map a => by
    intro ⟨p, hs, e, r⟩; have := K a _ p e; exact ⟨this.1, hs, this.2, nreadsM_mono K l hs r⟩
  | .pairs l, .pairs a => by
    intro ⟨p, hs, e, r⟩; have := K a _ p e; exact ⟨this.1, hs, this.2, nreadsP_mono K l hs r⟩
  | n, .leaf n' => by
    intro h; cases n <;> simpa [NReads] using h
  | .nil, .list _ | .bool _, .list _ | .str _, .list _ | .int _, .list _ | .float _, .list _ | .digits _, .list _ | .map _, .list _ | .pairs _, .list _
  | .time _, .list _ | .dur _, .list _
  | .nil, .map _ | .bool _, .map _ | .str _, .map _ | .int _, .map _ | .float _, .map _ | .digits _, .map _ | .list _, .map _ | .pairs _, .map _
  | .time _, .map _ | .dur _, .map _
  | .nil, .pairs _ | .bool _, .pairs _ | .str _, .pairs _ | .int _, .pairs _ | .float _, .pairs _ | .digits _, .pairs _ | .list _, .pairs _ | .map _, .pairs _
  | .time _, .pairs _ | .dur _, .pairs _ => by intro h; exact absurd h (by simp [NReads])
theorem nreadsL_mono {X : Ext} {P P' : Nat → Prop} {m m' : Mem X} (K : Keeps P P' m m') :
    ∀ (l : List (Node X)) (hs : List (HNode X)), NReadsL P m hs l → NReadsL P' m' hs l
  | [], [] => fun _ => trivial
  | n :: l, h :: hs => fun ⟨a, b⟩ => ⟨nreads_mono K n h a, nreadsL_mono K l hs b⟩
  | [], _ :: _ => fun h => h.elim
  | _ :: _, [] => fun h => h.elim
theorem nreadsM_mono {X : Ext} {P P' : Nat → Prop} {m m' : Mem X} (K : Keeps P P' m m') :
    ∀ (l : List (Str × Node X)) (hs : List (Str × HNode X)), NReadsM P m hs l → NReadsM P' m' hs l
  | [], [] => fun _ => trivial
  | (_, n) :: l, (_, h) :: hs => fun ⟨e, a, b⟩ => ⟨e, nreads_mono K n h a, nreadsM_mono K l hs b⟩
  | [], _ :: _ => fun h => h.elim
  | _ :: _, [] => fun h => h.elim
theorem nreadsP_mono {X : Ext} {P P' : Nat → Prop} {m m' : Mem X} (K : Keeps P P' m m') :
    ∀ (l : List ((Str × Str) × Node X)) (hs : List ((Str × Str) × HNode X)), NReadsP P m hs l → NReadsP P' m' hs l
  | [], [] => fun _ => trivial
  | (_, n) :: l, (_, h) :: hs => fun ⟨e, a, b⟩ => ⟨e, nreads_mono K n h a, nreadsP_mono K l hs b⟩
  | [], _ :: _ => fun h => h.elim
  | _ :: _, [] => fun h => h.elim
end

mutual
theorem areads_mono {X : Ext} {P P' : Nat → Prop} {m m' : Mem X} (K : Keeps P P' m m') : ∀ (n : Any X) (h : HAny X), AReads P m h n → AReads P' m' h n
  | .list l, .list a => by
    intro ⟨p, hs, e, r⟩; have := K a _ p e; exact ⟨this.1, hs, this.2, areadsL_mono K l hs r⟩
  | .map l, .map a => by
    intro ⟨p, hs, e, r⟩; have := K a _ p e; exact ⟨this.1, hs, this.2, areadsM_mono K l hs r⟩
  | n, .leaf n' => by
    intro h; cases n <;> simpa [AReads] using h
  | .nil, .list _ | .bool _, .list _ | .str _, .list _ | .i64 _, .list _ | .f64 _, .list _ | .map _, .list _
  | .time _, .list _ | .dur _, .list _ | .encTime _, .list _ | .encDur _, .list _
  | .nil, .map _ | .bool _, .map _ | .str _, .map _ | .i64 _, .map _ | .f64 _, .map _ | .list _, .map _
  | .time _, .map _ | .dur _, .map _ | .encTime _, .map _ | .encDur _, .map _ => by intro h; exact absurd h (by simp [AReads])
theorem areadsL_mono {X : Ext} {P P' : Nat → Prop} {m m' : Mem X} (K : Keeps P P' m m') :
    ∀ (l : List (Any X)) (hs : List (HAny X)), AReadsL P m hs l → AReadsL P' m' hs l
  | [], [] => fun _ => trivial
  | n :: l, h :: hs => fun ⟨a, b⟩ => ⟨areads_mono K n h a, areadsL_mono K l hs b⟩
  | [], _ :: _ => fun h => h.elim
  | _ :: _, [] => fun h => h.elim
theorem areadsM_mono {X : Ext} {P P' : Nat → Prop} {m m' : Mem X} (K : Keeps P P' m m') :
    ∀ (l : List (Str × Any X)) (hs : List (Str × HAny X)), AReadsM P m hs l → AReadsM P' m' hs l
  | [], [] => fun _ => trivial
  | (_, n) :: l, (_, h) :: hs => fun ⟨e, a, b⟩ => ⟨e, areads_mono K n h a, areadsM_mono K l hs b⟩
  | [], _ :: _ => fun h => h.elim
  | _ :: _, [] => fun h => h.elim
end

theorem All2.imp {α β : Type} {r s : α → β → Prop} (h : ∀ a b, r a b → s a b) {l : List α} {l' : List β} (x : All2 r l l') : All2 s l l' := by
  induction x with
  | nil => exact .nil
  | cons a _ ih => exact .cons (h _ _ a) ih

theorem All2.length {α β : Type} {r : α → β → Prop} {l : List α} {l' : List β} (x : All2 r l l') : l.length = l'.length := by
  induction x with
  | nil => rfl
  | cons _ _ ih => simp [ih]

theorem All2.replicate {α β : Type} {r : α → β → Prop} {a : α} {b : β} (h : r a b) : ∀ n, All2 r (List.replicate n a) (List.replicate n b)
  | 0 => .nil
  | n + 1 => .cons h (All2.replicate h n)

theorem Opt.imp {α β : Type} {r s : α → β → Prop} (h : ∀ a b, r a b → s a b) : ∀ {a : Option α} {b : Option β}, Opt r a b → Opt s a b
  | none, none, _ => trivial
  | some _, some _, x => h _ _ x
  | none, some _, x => x.elim
  | some _, none, x => x.elim

theorem Ents.imp {α β : Type} {r s : α → β → Prop} (h : ∀ a b, r a b → s a b) {l : List (Str × α)} {l' : List (Str × β)} (x : Ents r l l') : Ents s l l' :=
  All2.imp (fun _ _ p => ⟨p.1, h _ _ p.2⟩) x

theorem Ents.insert {α β : Type} {r : α → β → Prop} (k : Str) {a : α} {b : β} (h : r a b) {l : List (Str × α)} {l' : List (Str × β)} (x : Ents r l l') :
    Ents r (insertKey k a l) (insertKey k b l') := by
  induction x with
  | nil => exact .cons ⟨rfl, h⟩ .nil
  | @cons p q l l' pq t ih =>
    obtain ⟨k1, a1⟩ := p; obtain ⟨k2, b1⟩ := q
    obtain ⟨e, rr⟩ := pq
    simp only at e; subst e
    simp only [insertKey]
    split
    · exact .cons ⟨rfl, h⟩ t
    · split
      · exact .cons ⟨rfl, h⟩ (.cons ⟨rfl, rr⟩ t)
      · exact .cons ⟨rfl, rr⟩ ih

theorem Ents.foldl {α β : Type} {r : α → β → Prop} {l : List (Str × α)} {l' : List (Str × β)} (x : Ents r l l') :
    ∀ {acc : List (Str × α)} {acc' : List (Str × β)}, Ents r acc acc' →
      Ents r (l.foldl (fun m e => insertKey e.1 e.2 m) acc) (l'.foldl (fun m e => insertKey e.1 e.2 m) acc') := by
  induction x with
  | nil => exact fun h => h
  | @cons p q l l' pq t ih =>
    intro acc acc' h
    obtain ⟨k1, a1⟩ := p; obtain ⟨k2, b1⟩ := q
    obtain ⟨e, rr⟩ := pq
    simp only at e; subst e
    exact ih (Ents.insert k1 rr h)

theorem Ents.ofEntries {α β : Type} {r : α → β → Prop} {l : List (Str × α)} {l' : List (Str × β)} (x : Ents r l l') :
    Ents r (ofEntries l) (Enc.ofEntries l') := Ents.foldl x .nil

mutual
theorem reads_mono {X : Ext} {P P' R R' : Nat → Prop} {m m' : Mem X} (K : Keeps P P' m m') (J : Keeps R R' m m') :
    ∀ (t : Ty) (a : LV X t) (b : Val X t), Reads P R m t a b → Reads P' R' m' t a b
  | .bool, _, _, h | .int _, _, _, h | .uint _, _, _, h | .float64, _, _, h | .float32, _, _, h | .string, _, _, h | .time, _, _, h | .encTime, _, _, h
  | .encDur, _, _, h | .func, _, _, h | .chan, _, _, h | .iface, _, _, h => h
  | .any, a, b, h => areads_mono K b a h
  | .node, _, _, h => Opt.imp (fun a b => nreads_mono J b a) h
  | .ptr t, _, _, h => Opt.imp (fun a b ⟨p, v, e, r⟩ => ⟨(K a _ p e).1, v, (K a _ p e).2, reads_mono K J t v b r⟩) h
  | .slice t, _, _, h => Opt.imp (fun a b ⟨p, l, e, le, r⟩ => ⟨(K _ _ p e).1, l, (K _ _ p e).2, le, All2.imp (fun a b => reads_mono K J t a b) r⟩) h
  | .array _ t, _, _, h => All2.imp (fun a b => reads_mono K J t a b) h
  | .map _ t, _, _, h => Opt.imp (fun a b ⟨p, l, e, r⟩ => ⟨(K a _ p e).1, l, (K a _ p e).2, Ents.imp (fun a b => reads_mono K J t a b) r⟩) h
  | .struct fs, a, b, h => freads_mono K J fs a b h
theorem freads_mono {X : Ext} {P P' R R' : Nat → Prop} {m m' : Mem X} (K : Keeps P P' m m') (J : Keeps R R' m m') :
    ∀ (fs : Fields) (a : LFVals X fs) (b : FVals X fs), FReads P R m fs a b → FReads P' R' m' fs a b
  | .nil, _, _, _ => trivial
  | .cons _ t fs, (a, as), (b, bs), ⟨h, hs⟩ => ⟨reads_mono K J t a b h, freads_mono K J fs as bs hs⟩
end

mutual
theorem holds_mono {X : Ext} {P P' : Nat → Prop} {m m' : Mem X} (K : Keeps P P' m m') : ∀ n : LNode X, Holds P m n → Holds P' m' n
  | .leaf _, h => h
  | .list _ l, ⟨p, e, h⟩ => ⟨(K _ _ p e).1, (K _ _ p e).2, holdsL_mono K l h⟩
  | .map _ l, ⟨p, e, h⟩ => ⟨(K _ _ p e).1, (K _ _ p e).2, holdsM_mono K l h⟩
  | .pairs _ l, ⟨p, e, h⟩ => ⟨(K _ _ p e).1, (K _ _ p e).2, holdsP_mono K l h⟩
theorem holdsL_mono {X : Ext} {P P' : Nat → Prop} {m m' : Mem X} (K : Keeps P P' m m') : ∀ l : List (LNode X), HoldsL P m l → HoldsL P' m' l
  | [], _ => trivial
  | n :: l, ⟨a, b⟩ => ⟨holds_mono K n a, holdsL_mono K l b⟩
theorem holdsM_mono {X : Ext} {P P' : Nat → Prop} {m m' : Mem X} (K : Keeps P P' m m') : ∀ l : List (Str × LNode X), HoldsM P m l → HoldsM P' m' l
  | [], _ => trivial
  | (_, n) :: l, ⟨a, b⟩ => ⟨holds_mono K n a, holdsM_mono K l b⟩
theorem holdsP_mono {X : Ext} {P P' : Nat → Prop} {m m' : Mem X} (K : Keeps P P' m m') : ∀ l : List ((Str × Str) × LNode X), HoldsP P m l → HoldsP P' m' l
  | [], _ => trivial
  | (_, n) :: l, ⟨a, b⟩ => ⟨holds_mono K n a, holdsP_mono K l b⟩
end

theorem nreads_leaf {X : Ext} {P : Nat → Prop} {m : Mem X} {n : Node X} (h : scalarNode n = true) : NReads P m (.leaf n) n := by
  cases n <;> simp_all [NReads, scalarNode]

theorem areads_leaf {X : Ext} {P : Nat → Prop} {m : Mem X} {n : Any X} (h : scalarAny n = true) : AReads P m (.leaf n) n := by
  cases n <;> simp_all [AReads, scalarAny]

mutual
theorem holds_reads {X : Ext} {P : Nat → Prop} {m : Mem X} : ∀ n : LNode X, Holds P m n → NReads P m n.top n.erase
  | .leaf n, h => by exact nreads_leaf h
  | .list _ l, ⟨p, e, h⟩ => ⟨p, _, e, holdsL_reads l h⟩
  | .map _ l, ⟨p, e, h⟩ => ⟨p, _, e, holdsM_reads l h⟩
  | .pairs _ l, ⟨p, e, h⟩ => ⟨p, _, e, holdsP_reads l h⟩
theorem holdsL_reads {X : Ext} {P : Nat → Prop} {m : Mem X} : ∀ l : List (LNode X), HoldsL P m l → NReadsL P m (l.map LNode.top) (eraseL l)
  | [], _ => trivial
  | n :: l, ⟨a, b⟩ => ⟨holds_reads n a, holdsL_reads l b⟩
theorem holdsM_reads {X : Ext} {P : Nat → Prop} {m : Mem X} :
    ∀ l : List (Str × LNode X), HoldsM P m l → NReadsM P m (l.map fun e => (e.1, e.2.top)) (eraseM l)
  | [], _ => trivial
  | (_, n) :: l, ⟨a, b⟩ => ⟨rfl, holds_reads n a, holdsM_reads l b⟩
theorem holdsP_reads {X : Ext} {P : Nat → Prop} {m : Mem X} :
    ∀ l : List ((Str × Str) × LNode X), HoldsP P m l → NReadsP P m (l.map fun e => (e.1, e.2.top)) (eraseP l)
  | [], _ => trivial
  | (_, n) :: l, ⟨a, b⟩ => ⟨rfl, holds_reads n a, holdsP_reads l b⟩
end

mutual
theorem zero_reads {X : Ext} (P R : Nat → Prop) (m : Mem X) : ∀ t : Ty, Reads P R m t (hZero X t) (zero X t)
  | .bool | .int _ | .uint _ | .float64 | .float32 | .string | .time | .encTime | .encDur | .func | .chan => rfl
  | .iface => trivial
  | .any => areads_leaf rfl
  | .node | .ptr _ | .slice _ | .map _ _ => trivial
  | .array n t => All2.replicate (zero_reads P R m t) n
  | .struct fs => zeroF_reads P R m fs
theorem zeroF_reads {X : Ext} (P R : Nat → Prop) (m : Mem X) : ∀ fs : Fields, FReads P R m fs (hZeroFields X fs) (zeroFields X fs)
  | .nil => trivial
  | .cons _ t fs => ⟨zero_reads P R m t, zeroF_reads P R m fs⟩
end

/-- Addresses from here on. enc/handler.go L63-67. -/
def From (lo : Nat) (a : Nat) : Prop := lo ≤ a

theorem prefix_get {X : Ext} {m m' : Mem X} (h : m <+: m') {a : Nat} {c : Cell X} (e : m[a]? = some c) : m'[a]? = some c := by
  obtain ⟨s, rfl⟩ := h
  rw [List.getElem?_append_left (List.getElem?_eq_some_iff.1 e).1]; exact e

theorem keeps_prefix {X : Ext} {P P' : Nat → Prop} {m m' : Mem X} (h : m <+: m') (i : ∀ a, P a → P' a) : Keeps P P' m m' :=
  fun a _ p e => ⟨i a p, prefix_get h e⟩

theorem prefix_len {X : Ext} {m m' : Mem X} (h : m <+: m') : m.length ≤ m'.length := h.length_le

theorem prefix_set {X : Ext} {m m' : Mem X} {c d : Cell X} (h : m ++ [c] <+: m') : m <+: m'.set m.length d ∧ (m'.set m.length d)[m.length]? = some d := by
  obtain ⟨s, rfl⟩ := h
  refine ⟨⟨d :: s, ?_⟩, ?_⟩
  · simp
  · simp

theorem get_snoc {X : Ext} (m : Mem X) (c : Cell X) : (m ++ [c])[m.length]? = some c := by simp

theorem scalar_native {X : Ext} {n : Node X} (h : scalarNode n = true) : scalarAny n.native = true := by
  cases n <;> simp_all [scalarNode, Node.native, scalarAny]
  rename_i s; cases X.fParse s <;> rfl

theorem scalar_intoAny {X : Ext} {n : Node X} (h : scalarNode n = true) : scalarAny n.intoAny = true := by
  cases n <;> simp_all [scalarNode, Node.intoAny, Node.native, scalarAny]
  rename_i s; cases X.fParse s <;> rfl

mutual
theorem areadsM_ents {X : Ext} {P : Nat → Prop} {m : Mem X} :
    ∀ (l : List (Str × Any X)) (hs : List (Str × HAny X)), AReadsM P m hs l ↔ Ents (AReads P m) hs l
  | [], [] => ⟨fun _ => .nil, fun _ => trivial⟩
  | (k, n) :: l, (k', h) :: hs => by
    constructor
    · intro ⟨e, a, b⟩; exact .cons ⟨e, a⟩ ((areadsM_ents l hs).1 b)
    · intro h; cases h with
      | cons a b => exact ⟨a.1, a.2, (areadsM_ents l hs).2 b⟩
  | [], _ :: _ => ⟨fun h => h.elim, fun h => by cases h⟩
  | _ :: _, [] => ⟨fun h => h.elim, fun h => by cases h⟩
end

mutual
theorem native_ok {X : Ext} {Q : Nat → Prop} : ∀ (n : LNode X) (m m0 : Mem X), m0 <+: m → Holds Q m0 n →
    m <+: (hNative n m).2 ∧ AReads (From m.length) (hNative n m).2 (hNative n m).1 n.erase.native
  | .leaf n, m, _, _, h => by
    refine ⟨List.prefix_rfl, ?_⟩
    simp only [hNative, LNode.erase]
    exact areads_leaf (scalar_native h)
  | .list a l, m, m0, p, ⟨_, _, h⟩ => by
    have ih := listNative_ok l m m0 p h
    have q : (hListNative l m).2 <+: (hListNative l m).2 ++ [.anys (hListNative l m).1] := List.prefix_append ..
    exact ⟨ih.1.trans q, prefix_len ih.1, _, get_snoc _ _, areadsL_mono (keeps_prefix q fun _ h => h) _ _ ih.2⟩
  | .map a l, m, m0, p, ⟨_, _, h⟩ => by
    have ih := mapNative_ok l m m0 p h
    have q : (hMapNative l m).2 <+: (hMapNative l m).2 ++ [.anyMap (ofEntries (hMapNative l m).1)] := List.prefix_append ..
    refine ⟨ih.1.trans q, prefix_len ih.1, _, get_snoc _ _, ?_⟩
    exact (areadsM_ents _ _).2 (Ents.imp (fun a b => areads_mono (keeps_prefix q fun _ h => h) b a) (Ents.ofEntries ih.2))
  | .pairs a l, m, m0, p, ⟨_, _, h⟩ => by
    have ih := pairsNative_ok l m m0 p h
    have q : (hPairsNative l m).2 <+: (hPairsNative l m).2 ++ [.anyMap (ofEntries (hPairsNative l m).1)] := List.prefix_append ..
    refine ⟨ih.1.trans q, prefix_len ih.1, _, get_snoc _ _, ?_⟩
    exact (areadsM_ents _ _).2 (Ents.imp (fun a b => areads_mono (keeps_prefix q fun _ h => h) b a) (Ents.ofEntries ih.2))
theorem listNative_ok {X : Ext} {Q : Nat → Prop} : ∀ (l : List (LNode X)) (m m0 : Mem X), m0 <+: m → HoldsL Q m0 l →
    m <+: (hListNative l m).2 ∧ AReadsL (From m.length) (hListNative l m).2 (hListNative l m).1 (Node.listNative (eraseL l))
  | [], m, _, _, _ => ⟨List.prefix_rfl, trivial⟩
  | n :: l, m, m0, p, ⟨h, hs⟩ => by
    have a := native_ok n m m0 p h
    have b := listNative_ok l (hNative n m).2 m0 (p.trans a.1) hs
    exact ⟨a.1.trans b.1, areads_mono (keeps_prefix b.1 fun _ h => h) _ _ a.2,
      areadsL_mono (keeps_prefix List.prefix_rfl fun _ h => Nat.le_trans (prefix_len a.1) h) _ _ b.2⟩
theorem mapNative_ok {X : Ext} {Q : Nat → Prop} : ∀ (l : List (Str × LNode X)) (m m0 : Mem X), m0 <+: m → HoldsM Q m0 l →
    m <+: (hMapNative l m).2 ∧ Ents (AReads (From m.length) (hMapNative l m).2) (hMapNative l m).1 (Node.mapNative (eraseM l))
  | [], m, _, _, _ => ⟨List.prefix_rfl, .nil⟩
  | (_, n) :: l, m, m0, p, ⟨h, hs⟩ => by
    have a := native_ok n m m0 p h
    have b := mapNative_ok l (hNative n m).2 m0 (p.trans a.1) hs
    exact ⟨a.1.trans b.1, .cons ⟨rfl, areads_mono (keeps_prefix b.1 fun _ h => h) _ _ a.2⟩
      (Ents.imp (fun x y => areads_mono (keeps_prefix List.prefix_rfl fun _ h => Nat.le_trans (prefix_len a.1) h) y x) b.2)⟩
theorem pairsNative_ok {X : Ext} {Q : Nat → Prop} : ∀ (l : List ((Str × Str) × LNode X)) (m m0 : Mem X), m0 <+: m → HoldsP Q m0 l →
    m <+: (hPairsNative l m).2 ∧ Ents (AReads (From m.length) (hPairsNative l m).2) (hPairsNative l m).1 (Node.pairsNative (eraseP l))
  | [], m, _, _, _ => ⟨List.prefix_rfl, .nil⟩
  | ((_, _), n) :: l, m, m0, p, ⟨h, hs⟩ => by
    have a := native_ok n m m0 p h
    have b := pairsNative_ok l (hNative n m).2 m0 (p.trans a.1) hs
    exact ⟨a.1.trans b.1, .cons ⟨rfl, areads_mono (keeps_prefix b.1 fun _ h => h) _ _ a.2⟩
      (Ents.imp (fun x y => areads_mono (keeps_prefix List.prefix_rfl fun _ h => Nat.le_trans (prefix_len a.1) h) y x) b.2)⟩
end

theorem holdsM_iff {X : Ext} {Q : Nat → Prop} {m : Mem X} : ∀ l : List (Str × LNode X), HoldsM Q m l ↔ ∀ e ∈ l, Holds Q m e.2
  | [] => ⟨fun _ _ h => (nomatch h), fun _ => trivial⟩
  | (k, n) :: l => by
    simp only [HoldsM, List.mem_cons, forall_eq_or_imp, holdsM_iff l]

theorem holdsP_all {X : Ext} {Q : Nat → Prop} {m : Mem X} : ∀ l : List ((Str × Str) × LNode X), HoldsP Q m l → ∀ e ∈ l, Holds Q m e.2
  | [], _ => fun _ h => by cases h
  | (k, n) :: l, h => by
    simp only [List.mem_cons, forall_eq_or_imp]
    exact ⟨h.1, holdsP_all l h.2⟩

theorem eraseM_map {X : Ext} : ∀ l : List (Str × LNode X), eraseM l = l.map fun e => (e.1, e.2.erase)
  | [] => rfl
  | (_, _) :: l => by simp only [eraseM, List.map_cons, eraseM_map l]

theorem eraseP_map {X : Ext} : ∀ l : List ((Str × Str) × LNode X), eraseP l = l.map fun e => (e.1, e.2.erase)
  | [] => rfl
  | (_, _) :: l => by simp only [eraseP, List.map_cons, eraseP_map l]

theorem eraseL_map {X : Ext} : ∀ l : List (LNode X), eraseL l = l.map LNode.erase
  | [] => rfl
  | _ :: l => by simp only [eraseL, List.map_cons, eraseL_map l]

theorem eraseM_lookup {X : Ext} (k : Str) : ∀ l : List (Str × LNode X), lookupKey k (eraseM l) = (lookupKey k l).map LNode.erase
  | [] => rfl
  | (k', n) :: l => by
    simp only [eraseM, lookupKey]
    split
    · rfl
    · exact eraseM_lookup k l

theorem eraseM_asMap {X : Ext} (l : List ((Str × Str) × LNode X)) : eraseM (hAsMap l) = asMap (eraseP l) := by
  have h : ∀ l : List ((Str × Str) × LNode X), Ents (fun (a : LNode X) (b : Node X) => a.erase = b) (l.map fun p => (p.1.2, p.2)) ((eraseP l).map fun p => (p.1.2, p.2)) := by
    intro l
    induction l with
    | nil => exact .nil
    | cons e l ih => exact .cons ⟨rfl, rfl⟩ ih
  have g : ∀ (a : List (Str × LNode X)) (b : List (Str × Node X)), Ents (fun (a : LNode X) (b : Node X) => a.erase = b) a b → eraseM a = b := by
    intro a b x
    induction x with
    | nil => rfl
    | @cons p q l l' pq t ih =>
      obtain ⟨k, n⟩ := p; obtain ⟨k', n'⟩ := q; obtain ⟨e, f⟩ := pq
      simp only at e f
      simp only [eraseM, ih, e, f]
  exact g _ _ (Ents.ofEntries (h l))

theorem holds_asMap {X : Ext} {Q : Nat → Prop} {m : Mem X} (l : List ((Str × Str) × LNode X)) (h : HoldsP Q m l) : HoldsM Q m (hAsMap l) := by
  rw [holdsM_iff]
  intro e he
  have := mem_ofEntries _ _ he
  obtain ⟨p, hp, rfl⟩ := List.mem_map.1 this
  exact holdsP_all l h p hp

/-- That a call with the memory does what the call on values does, adds to the memory only, and that its result leads to new cells, apart from its nodes.
enc/handler.go L51-160. -/
def FOK {X : Ext} {t : Ty} (Q : Nat → Prop) (f : LNode X → Mem X → HOut X (LV X t)) (g : Node X → Out X (Val X t)) : Prop :=
  ∀ (n : LNode X) (m : Mem X), (∀ a, Q a → a < m.length) → Holds Q m n →
    m <+: (f n m).mem ∧ (f n m).st = (g n.erase).st ∧ (f n m).calls = (g n.erase).calls ∧
    Reads (From m.length) Q (f n m).mem t (f n m).val (g n.erase).val

theorem elems_ok {X : Ext} {t : Ty} {Q : Nat → Prop} {f : LNode X → Mem X → HOut X (LV X t)} {g : Node X → Out X (Val X t)} (F : FOK Q f g) :
    ∀ (l : List (LNode X)) (m : Mem X), (∀ a, Q a → a < m.length) → HoldsL Q m l →
      m <+: (hElems f l m).mem ∧ (hElems f l m).st = (uElems g (eraseL l)).st ∧ (hElems f l m).calls = (uElems g (eraseL l)).calls ∧
      All2 (Reads (From m.length) Q (hElems f l m).mem t) (hElems f l m).val (uElems g (eraseL l)).val ∧
      ((hElems f l m).st = .ok → (hElems f l m).val.length = l.length)
  | [], m, _, _ => ⟨List.prefix_rfl, rfl, rfl, .nil, fun _ => rfl⟩
  | n :: l, m, q, ⟨h, hs⟩ => by
    obtain ⟨p, s, c, r⟩ := F n m q h
    simp only [hElems, eraseL, uElems]
    rw [← s, ← c]
    cases e : (f n m).st
    · simp only
      obtain ⟨p', s', c', r', n'⟩ := elems_ok F l (f n m).mem (fun a x => Nat.lt_of_lt_of_le (q a x) (prefix_len p))
        (holdsL_mono (keeps_prefix p fun _ x => x) l hs)
      refine ⟨p.trans p', s', by rw [c'], .cons (reads_mono (keeps_prefix p' fun _ x => x) (keeps_prefix p' fun _ x => x) t _ _ r)
        (All2.imp (fun a b => reads_mono (keeps_prefix List.prefix_rfl fun _ x => Nat.le_trans (prefix_len p) x) (keeps_prefix List.prefix_rfl fun _ x => x) t a b) r'), ?_⟩
      intro o; simp [n' o]
    · exact ⟨p, rfl, rfl, .nil, fun h => by cases h⟩
    · exact ⟨p, rfl, rfl, .nil, fun h => by cases h⟩

theorem entries_ok {X : Ext} {t : Ty} {Q : Nat → Prop} {f : LNode X → Mem X → HOut X (LV X t)} {g : Node X → Out X (Val X t)} (F : FOK Q f g) (k : KTy) (lo : Nat) :
    ∀ (l : List (Str × LNode X)) (acc : List (Str × LV X t)) (acc' : List (Str × Val X t)) (m : Mem X), lo ≤ m.length → (∀ a, Q a → a < m.length) → HoldsM Q m l →
      Ents (Reads (From lo) Q m t) acc acc' →
      m <+: (hEntries k f l acc m).mem ∧ (hEntries k f l acc m).st = (uEntries k g (eraseM l) acc').st ∧
      (hEntries k f l acc m).calls = (uEntries k g (eraseM l) acc').calls ∧
      Ents (Reads (From lo) Q (hEntries k f l acc m).mem t) (hEntries k f l acc m).val (uEntries k g (eraseM l) acc').val
  | [], _, _, m, _, _, _, x => ⟨List.prefix_rfl, rfl, rfl, x⟩
  | (key, n) :: l, acc, acc', m, lm, q, ⟨h, hs⟩, x => by
    simp only [hEntries, eraseM, uEntries]
    cases normKey k key with
    | none => exact ⟨List.prefix_rfl, rfl, rfl, x⟩
    | some key' =>
      simp only
      obtain ⟨p, s, c, r⟩ := F n m q h
      have x' : Ents (Reads (From lo) Q (f n m).mem t) acc acc' :=
        Ents.imp (fun a b => reads_mono (keeps_prefix p fun _ x => x) (keeps_prefix p fun _ x => x) t a b) x
      have r' : Reads (From lo) Q (f n m).mem t (f n m).val (g n.erase).val :=
        reads_mono (keeps_prefix List.prefix_rfl fun _ x => Nat.le_trans lm x) (keeps_prefix List.prefix_rfl fun _ x => x) t _ _ r
      rw [← s, ← c]
      cases e : (f n m).st
      · simp only
        obtain ⟨p2, s2, c2, r2⟩ := entries_ok F k lo l (insertKey key' (f n m).val acc) (insertKey key' (g n.erase).val acc') (f n m).mem
          (Nat.le_trans lm (prefix_len p)) (fun a x => Nat.lt_of_lt_of_le (q a x) (prefix_len p)) (holdsM_mono (keeps_prefix p fun _ x => x) l hs)
          (Ents.insert key' r' x')
        exact ⟨p.trans p2, s2, by rw [c2], r2⟩
      · exact ⟨p, rfl, rfl, x'⟩
      · exact ⟨p, rfl, rfl, x'⟩

theorem keeps_set {X : Ext} {P P' : Nat → Prop} {m : Mem X} {i : Nat} {c : Cell X} (h : ∀ a, P a → a ≠ i ∧ P' a) : Keeps P P' m (m.set i c) := by
  intro a d p e
  refine ⟨(h a p).2, ?_⟩
  rw [List.getElem?_set_ne (fun x => (h a p).1 x.symm)]
  exact e

/-- either set. enc/handler.go L43-160. -/
def Or2 (P P' : Nat → Prop) (a : Nat) : Prop := P a ∨ P' a

theorem from_ne {n : Nat} {P : Nat → Prop} (a : Nat) (h : From (n + 1) a) : a ≠ n ∧ Or2 P (From n) a := by
  simp only [From] at h
  exact ⟨by omega, .inr (by simp only [From]; omega)⟩

/-- A result as it should be, given the variable before. enc/handler.go L51-160. -/
def ROK {X : Ext} {α β : Type} (rel : (Nat → Prop) → (Nat → Prop) → Mem X → α → β → Prop) (P R Q : Nat → Prop) (m : Mem X) (r : HOut X α) (o : Out X β) : Prop :=
  m <+: r.mem ∧ r.st = o.st ∧ r.calls = o.calls ∧ rel (Or2 P (From m.length)) (Or2 R Q) r.mem r.val o.val

/-- the cells of the variable are still there. enc/handler.go L51-160. -/
theorem keep_old {X : Ext} {P P' : Nat → Prop} {m m' : Mem X} (h : m <+: m') : Keeps P (Or2 P P') m m' := keeps_prefix h fun _ => .inl

section cases
variable {X : Ext} {t : Ty} {P R Q : Nat → Prop} {f : LNode X → Mem X → HOut X (LV X t)} {g : Node X → Out X (Val X t)} (F : FOK Q f g)
include F

theorem ptr_core (z : LV X t) (n : LNode X) (m : Mem X) (q : ∀ a, Q a → a < m.length) (h : Holds Q m n) :
    ROK (fun P R m => Reads P R m (.ptr t)) P R Q m
      ⟨some m.length, (f n (m ++ [.var t z])).mem.set m.length (.var t (f n (m ++ [.var t z])).val), (f n (m ++ [.var t z])).st, (f n (m ++ [.var t z])).calls⟩
      ⟨(some (g n.erase).val : Option (Val X t)), (g n.erase).st, (g n.erase).calls⟩ := by
  have e : m <+: m ++ [Cell.var t z] := List.prefix_append ..
  obtain ⟨p, s, c, r⟩ := F n (m ++ [.var t z]) (fun a x => Nat.lt_of_lt_of_le (q a x) (prefix_len e)) (holds_mono (keeps_prefix e fun _ x => x) n h)
  have ps := prefix_set (d := .var t (f n (m ++ [.var t z])).val) p
  refine ⟨ps.1, s, c, .inr (Nat.le_refl _), _, ps.2, ?_⟩
  rw [show (m ++ [Cell.var t z]).length = m.length + 1 by simp] at r
  exact reads_mono (keeps_set fun a x => from_ne a x) (keeps_set fun a x => ⟨Nat.ne_of_lt (q a x), .inr x⟩) t _ _ r

theorem ptr_ok (z : LV X t) (n : LNode X) (m : Mem X) (q : ∀ a, Q a → a < m.length) (h : Holds Q m n) :
    ROK (fun P R m => Reads P R m (.ptr t)) P R Q m (hPtr f z n m) (uPtr g n.erase) := by
  have core := ptr_core (P := P) (R := R) F z n m q h
  cases n with
  | leaf n =>
    cases n with
    | nil => exact ⟨List.prefix_rfl, rfl, rfl, trivial⟩
    | list _ => cases h
    | map _ => cases h
    | pairs _ => cases h
    | _ => exact core
  | _ => exact core

theorem slice_ok (z : LV X t) (n : LNode X) (old : Option (Nat × Nat × Nat)) (v : Option (List (Val X t))) (m : Mem X) (q : ∀ a, Q a → a < m.length)
    (h : Holds Q m n) (ho : Reads P R m (.slice t) old v) :
    ROK (fun P R m => Reads P R m (.slice t)) P R Q m (hSlice f z n old m) (uSlice g n.erase v) := by
  have keep : ∀ m', m <+: m' → Reads (Or2 P (From m.length)) (Or2 R Q) m' (.slice t) old v := fun m' p =>
    reads_mono (keep_old p) (keep_old p) (.slice t) old v ho
  cases n with
  | leaf n =>
    cases n with
    | nil => exact ⟨List.prefix_rfl, rfl, rfl, trivial⟩
    | list _ => cases h
    | _ => exact ⟨List.prefix_rfl, rfl, rfl, keep m List.prefix_rfl⟩
  | list a l =>
    have e : m <+: m ++ [Cell.arr t (List.replicate l.length z)] := List.prefix_append ..
    obtain ⟨p, s, c, r, len⟩ := elems_ok F l (m ++ [.arr t (List.replicate l.length z)]) (fun a x => Nat.lt_of_lt_of_le (q a x) (prefix_len e))
      (holdsL_mono (keeps_prefix e fun _ x => x) l h.2.2)
    rw [show (m ++ [Cell.arr t (List.replicate l.length z)]).length = m.length + 1 by simp] at r
    simp only [hSlice, LNode.erase, uSlice, Out.assign]
    rw [← s, ← c]
    cases st : (hElems f l (m ++ [.arr t (List.replicate l.length z)])).st
    · have ps := prefix_set (d := .arr t (hElems f l (m ++ [.arr t (List.replicate l.length z)])).val) p
      refine ⟨ps.1, rfl, rfl, .inr (Nat.le_refl _), _, ps.2, ?_, ?_⟩
      · simp [len st]
      · have tk : ∀ x : List (LV X t), x.length = l.length → (x.drop 0).take l.length = x := by intro x hx; rw [List.drop_zero, ← hx, List.take_length]
        rw [tk _ (len st)]
        exact All2.imp (fun a b => reads_mono (keeps_set fun a x => from_ne a x) (keeps_set fun a x => ⟨Nat.ne_of_lt (q a x), .inr x⟩) t a b) r
    · exact ⟨e.trans p, rfl, rfl, keep _ (e.trans p)⟩
    · exact ⟨e.trans p, rfl, rfl, keep _ (e.trans p)⟩
  | _ => exact ⟨List.prefix_rfl, rfl, rfl, keep m List.prefix_rfl⟩

theorem array_ok (k : Nat) (n : LNode X) (z old : { l : List (LV X t) // l.length = k }) (zv v : { l : List (Val X t) // l.length = k }) (m : Mem X)
    (q : ∀ a, Q a → a < m.length) (h : Holds Q m n) (hz : ∀ P R m, Reads P R m (.array k t) z zv) (ho : Reads P R m (.array k t) old v) :
    ROK (fun P R m => Reads P R m (.array k t)) P R Q m (hArray k f n z old m) (uArray k g n.erase zv v) := by
  have keep : ∀ m', m <+: m' → Reads (Or2 P (From m.length)) (Or2 R Q) m' (.array k t) old v := fun m' p =>
    reads_mono (keep_old p) (keep_old p) (.array k t) old v ho
  cases n with
  | leaf n =>
    cases n with
    | nil => exact ⟨List.prefix_rfl, rfl, rfl, hz _ _ _⟩
    | list _ => cases h
    | _ => exact ⟨List.prefix_rfl, rfl, rfl, keep m List.prefix_rfl⟩
  | list a l =>
    obtain ⟨p, s, c, r, len⟩ := elems_ok F l m q h.2.2
    simp only [hArray, LNode.erase, uArray, Out.assign, eraseL_map, List.length_map]
    rw [← eraseL_map]
    split
    · rename_i hk
      rw [← s, ← c]
      cases st : (hElems f l m).st
      · have hl : (hElems f l m).val.length = k := by rw [len st, hk]
        have hl' : (uElems g (eraseL l)).val.length = k := by rw [← r.length, hl]
        simp only
        rw [dif_pos hl, dif_pos hl']
        exact ⟨p, rfl, rfl, All2.imp (fun a b => reads_mono (keeps_prefix List.prefix_rfl fun _ => .inr) (keeps_prefix List.prefix_rfl fun _ => .inr) t a b) r⟩
      · exact ⟨p, rfl, rfl, keep _ p⟩
      · exact ⟨p, rfl, rfl, keep _ p⟩
    · exact ⟨List.prefix_rfl, rfl, rfl, keep m List.prefix_rfl⟩
  | _ => exact ⟨List.prefix_rfl, rfl, rfl, keep m List.prefix_rfl⟩

theorem mapOf_ok {O : Order} (L : LOrder X O) (k : KTy) (ents : List (Str × LNode X)) (old : Option Nat) (v : Option (List (Str × Val X t))) (m : Mem X)
    (q : ∀ a, Q a → a < m.length) (h : HoldsM Q m ents) (ho : Reads P R m (.map k t) old v) :
    ROK (fun P R m => Reads P R m (.map k t)) P R Q m (hMapOf L k f ents old m) ((uEntries k g (O.perm (eraseM ents)) []).assign some v) := by
  have e : m <+: m ++ [Cell.mp t []] := List.prefix_append ..
  have hp : HoldsM Q m (L.perm ents) := (holdsM_iff _).2 fun x hx => (holdsM_iff _).1 h x ((L.isPerm ents).mem_iff.1 hx)
  obtain ⟨p, s, c, r⟩ := entries_ok F k (m.length + 1) (L.perm ents) [] [] (m ++ [.mp t []]) (by simp)
    (fun a x => Nat.lt_of_lt_of_le (q a x) (prefix_len e)) (holdsM_mono (keeps_prefix e fun _ x => x) _ hp) .nil
  rw [L.agrees] at s c r
  simp only [hMapOf, Out.assign]
  rw [← s, ← c]
  cases st : (hEntries k f (L.perm ents) [] (m ++ [.mp t []])).st
  · have ps := prefix_set (d := .mp t (hEntries k f (L.perm ents) [] (m ++ [.mp t []])).val) p
    refine ⟨ps.1, rfl, rfl, .inr (Nat.le_refl _), _, ps.2, ?_⟩
    exact Ents.imp (fun a b => reads_mono (keeps_set fun a x => from_ne a x) (keeps_set fun a x => ⟨Nat.ne_of_lt (q a x), .inr x⟩) t a b) r
  · exact ⟨e.trans p, rfl, rfl, reads_mono (keep_old (e.trans p)) (keep_old (e.trans p)) (.map k t) old v ho⟩
  · exact ⟨e.trans p, rfl, rfl, reads_mono (keep_old (e.trans p)) (keep_old (e.trans p)) (.map k t) old v ho⟩

theorem map_ok {O : Order} (L : LOrder X O) (k : KTy) (n : LNode X) (old : Option Nat) (v : Option (List (Str × Val X t))) (m : Mem X)
    (q : ∀ a, Q a → a < m.length) (h : Holds Q m n) (ho : Reads P R m (.map k t) old v) :
    ROK (fun P R m => Reads P R m (.map k t)) P R Q m (hMap L k f n old m) (uMap O k g n.erase v) := by
  have keep : ∀ m', m <+: m' → Reads (Or2 P (From m.length)) (Or2 R Q) m' (.map k t) old v := fun m' p =>
    reads_mono (keep_old p) (keep_old p) (.map k t) old v ho
  cases n with
  | leaf n =>
    cases n with
    | nil => exact ⟨List.prefix_rfl, rfl, rfl, trivial⟩
    | map _ => cases h
    | pairs _ => cases h
    | _ => exact ⟨List.prefix_rfl, rfl, rfl, keep m List.prefix_rfl⟩
  | map a l => exact mapOf_ok F L k l old v m q h.2.2 ho
  | pairs a l =>
    have := mapOf_ok F L k (hAsMap l) old v m q (holds_asMap l h.2.2) ho
    rw [eraseM_asMap] at this
    exact this
  | _ => exact ⟨List.prefix_rfl, rfl, rfl, keep m List.prefix_rfl⟩
end cases

theorem struct_ok {X : Ext} {O : Order} {P R Q : Nat → Prop} (H : Handler X) (L : LOrder X O) (fs : Fields) (ents : List (Str × LNode X)) (m : Mem X) (r : HOut X (LFVals X fs)) (o : Out X (FVals X fs))
    (h : ROK (fun P R m => FReads P R m fs) P R Q m r o) :
    ROK (fun P R m => FReads P R m fs) P R Q m (hStruct H L fs ents r) (uStruct H O fs (eraseM ents) o) := by
  obtain ⟨p, s, c, v⟩ := h
  simp only [hStruct, uStruct, report, unknown, L.agrees]
  rw [← s, ← c]
  cases st : r.st
  · cases H.unhandled with
    | none => exact ⟨p, rfl, rfl, v⟩
    | some cb => exact ⟨p, rfl, rfl, v⟩
  · exact ⟨p, rfl, rfl, v⟩
  · exact ⟨p, rfl, rfl, v⟩

theorem flat_ok {X : Ext} {t : Ty} {P R Q : Nat → Prop} (m : Mem X) (r : Out X (LV X t)) (o : Out X (Val X t)) (e : r.st = o.st ∧ r.calls = o.calls)
    (h : ∀ P R m, Reads P R m t r.val o.val) : ROK (fun P R m => Reads P R m t) P R Q m (.flat m r) o :=
  ⟨List.prefix_rfl, e.1, e.2, h _ _ _⟩

theorem intoAny_ok {X : Ext} {P R Q : Nat → Prop} (n : LNode X) (m : Mem X) (h : Holds Q m n) :
    ROK (fun P R m => Reads P R m .any) P R Q m ⟨(hIntoAny n m).1, (hIntoAny n m).2, .ok, []⟩ (.done n.erase.intoAny) := by
  have core := native_ok n m m List.prefix_rfl h
  have core' := areads_mono (P' := Or2 P (From m.length)) (keeps_prefix List.prefix_rfl fun _ => .inr) _ _ core.2
  cases n with
  | leaf n => exact ⟨List.prefix_rfl, rfl, rfl, areads_leaf (scalar_intoAny h)⟩
  | _ => exact ⟨core.1, rfl, rfl, core'⟩

theorem rok_fok {X : Ext} {t : Ty} {Q : Nat → Prop} {f : LNode X → Mem X → HOut X (LV X t)} {g : Node X → Out X (Val X t)}
    (h : ∀ (n : LNode X) (m : Mem X), (∀ a, Q a → a < m.length) → Holds Q m n →
      ROK (fun P R m => Reads P R m t) (fun _ => False) (fun _ => False) Q m (f n m) (g n.erase)) : FOK Q f g := by
  intro n m q hn
  obtain ⟨p, s, c, v⟩ := h n m q hn
  exact ⟨p, s, c, reads_mono (keeps_prefix List.prefix_rfl fun _ x => x.elim False.elim id) (keeps_prefix List.prefix_rfl fun _ x => x.elim False.elim id) t _ _ v⟩

mutual
theorem un_ok {X : Ext} {O : Order} {Q : Nat → Prop} (H : Handler X) (L : LOrder X O) : ∀ (t : Ty) (P R : Nat → Prop) (n : LNode X) (old : LV X t) (v : Val X t) (m : Mem X),
    (∀ a, Q a → a < m.length) → Holds Q m n → Reads P R m t old v →
    ROK (fun P R m => Reads P R m t) P R Q m (hUnmarshal H L t n old m) (unmarshal H O t n.erase v)
  | .bool, _, _, n, old, v, m, _, _, ho => flat_ok m _ _ (by cases ho; exact ⟨rfl, rfl⟩) fun _ _ _ => by cases ho; rfl
  | .int w, _, _, n, old, v, m, _, _, ho => flat_ok m _ _ (by cases ho; exact ⟨rfl, rfl⟩) fun _ _ _ => by cases ho; rfl
  | .uint w, _, _, n, old, v, m, _, _, ho => flat_ok m _ _ (by cases ho; exact ⟨rfl, rfl⟩) fun _ _ _ => by cases ho; rfl
  | .float64, _, _, n, old, v, m, _, _, ho => flat_ok m _ _ (by cases ho; exact ⟨rfl, rfl⟩) fun _ _ _ => by cases ho; rfl
  | .float32, _, _, n, old, v, m, _, _, ho => flat_ok m _ _ (by cases ho; exact ⟨rfl, rfl⟩) fun _ _ _ => by cases ho; rfl
  | .string, _, _, n, old, v, m, _, _, ho => flat_ok m _ _ (by cases ho; exact ⟨rfl, rfl⟩) fun _ _ _ => by cases ho; rfl
  | .time, _, _, n, old, v, m, _, _, ho => flat_ok m _ _ (by cases ho; exact ⟨rfl, rfl⟩) fun _ _ _ => by cases ho; rfl
  | .encTime, _, _, n, old, v, m, _, _, ho => flat_ok m _ _ (by cases ho; exact ⟨rfl, rfl⟩) fun _ _ _ => by cases ho; rfl
  | .encDur, _, _, n, old, v, m, _, _, ho => flat_ok m _ _ (by cases ho; exact ⟨rfl, rfl⟩) fun _ _ _ => by cases ho; rfl
  | .func, _, _, n, old, v, m, _, _, ho => flat_ok m _ _ (by cases ho; exact ⟨rfl, rfl⟩) fun _ _ _ => by cases ho; rfl
  | .chan, _, _, n, old, v, m, _, _, ho => flat_ok m _ _ (by cases ho; exact ⟨rfl, rfl⟩) fun _ _ _ => by cases ho; rfl
  | .iface, _, _, n, old, v, m, _, _, ho => flat_ok m _ _ ⟨rfl, rfl⟩ fun _ _ _ => trivial
  | .any, _, _, n, old, v, m, _, h, _ => intoAny_ok n m h
  | .node, _, _, n, old, v, m, _, h, _ => ⟨List.prefix_rfl, rfl, rfl, nreads_mono (keeps_prefix List.prefix_rfl fun _ => .inr) _ _ (holds_reads n h)⟩
  | .ptr t, _, _, n, old, v, m, q, h, _ =>
    ptr_ok (rok_fok fun n m q h => un_ok H L t _ _ n (hZero X t) (zero X t) m q h (zero_reads _ _ m t)) (hZero X t) n m q h
  | .slice t, _, _, n, old, v, m, q, h, ho =>
    slice_ok (rok_fok fun n m q h => un_ok H L t _ _ n (hZero X t) (zero X t) m q h (zero_reads _ _ m t)) (hZero X t) n old v m q h ho
  | .array k t, _, _, n, old, v, m, q, h, ho =>
    array_ok (rok_fok fun n m q h => un_ok H L t _ _ n (hZero X t) (zero X t) m q h (zero_reads _ _ m t)) k n (hZero X (.array k t)) old (zero X (.array k t)) v m q h
      (fun P R m => zero_reads P R m (.array k t)) ho
  | .map k t, _, _, n, old, v, m, q, h, ho =>
    map_ok (rok_fok fun n m q h => un_ok H L t _ _ n (hZero X t) (zero X t) m q h (zero_reads _ _ m t)) L k n old v m q h ho
  | .struct fs, P, R, .leaf n, old, v, m, q, h, ho => by
    cases n with
    | nil => exact ⟨List.prefix_rfl, rfl, rfl, zeroF_reads _ _ m fs⟩
    | map _ => cases h
    | pairs _ => cases h
    | _ => exact ⟨List.prefix_rfl, rfl, rfl, freads_mono (keep_old List.prefix_rfl) (keep_old List.prefix_rfl) fs _ _ ho⟩
  | .struct fs, P, R, .list _ _, old, v, m, q, h, ho =>
    ⟨List.prefix_rfl, rfl, rfl, freads_mono (keep_old List.prefix_rfl) (keep_old List.prefix_rfl) fs _ _ ho⟩
  | .struct fs, P, R, .map a l, old, v, m, q, h, ho => struct_ok H L fs l m _ _ (fields_ok H L fs P R l old v m q h.2.2 ho)
  | .struct fs, P, R, .pairs a l, old, v, m, q, h, ho => by
    have := struct_ok H L fs (hAsMap l) m _ _ (fields_ok H L fs P R (hAsMap l) old v m q (holds_asMap l h.2.2) ho)
    rw [eraseM_asMap] at this
    exact this
theorem fields_ok {X : Ext} {O : Order} {Q : Nat → Prop} (H : Handler X) (L : LOrder X O) : ∀ (fs : Fields) (P R : Nat → Prop) (e : List (Str × LNode X)) (old : LFVals X fs) (v : FVals X fs) (m : Mem X),
    (∀ a, Q a → a < m.length) → HoldsM Q m e → FReads P R m fs old v →
    ROK (fun P R m => FReads P R m fs) P R Q m (hFields H L fs e old m) (uFields H O fs (eraseM e) v)
  | .nil, _, _, _, _, _, m, _, _, _ => ⟨List.prefix_rfl, rfl, rfl, trivial⟩
  | .cons f t fs, P, R, e, (a, as), (v, vs), m, q, h, ⟨ho, hos⟩ => by
    have skip : ROK (fun P R m => FReads P R m (.cons f t fs)) P R Q m
        ⟨(a, (hFields H L fs e as m).val), (hFields H L fs e as m).mem, (hFields H L fs e as m).st, (hFields H L fs e as m).calls⟩
        ⟨(v, (uFields H O fs (eraseM e) vs).val), (uFields H O fs (eraseM e) vs).st, (uFields H O fs (eraseM e) vs).calls⟩ := by
      obtain ⟨p, s, c, x⟩ := fields_ok H L fs P R e as vs m q h hos
      exact ⟨p, s, c, reads_mono (keep_old p) (keep_old p) t _ _ ho, x⟩
    simp only [hFields, uFields, eraseM_lookup]
    split
    · cases parseTag f with
      | none => exact ⟨List.prefix_rfl, rfl, rfl, reads_mono (keep_old List.prefix_rfl) (keep_old List.prefix_rfl) t _ _ ho,
          freads_mono (keep_old List.prefix_rfl) (keep_old List.prefix_rfl) fs _ _ hos⟩
      | some tag =>
        simp only
        cases lk : lookupKey tag.json e with
        | none => exact skip
        | some n =>
          simp only [Option.map]
          have hn : Holds Q m n := (holdsM_iff e).1 h _ (mem_of_lookup lk)
          obtain ⟨p, s, c, x⟩ := un_ok H L t P R n a v m q hn ho
          rw [← s, ← c]
          cases st : (hUnmarshal H L t n a m).st
          · simp only
            obtain ⟨p2, s2, c2, x2⟩ := fields_ok H L fs P R e as vs (hUnmarshal H L t n a m).mem (fun b x => Nat.lt_of_lt_of_le (q b x) (prefix_len p))
              (holdsM_mono (keeps_prefix p fun _ x => x) e h) (freads_mono (keeps_prefix p fun _ x => x) (keeps_prefix p fun _ x => x) fs _ _ hos)
            exact ⟨p.trans p2, s2, by rw [c2], reads_mono (keeps_prefix p2 fun _ x => x) (keeps_prefix p2 fun _ x => x) t _ _ x,
              freads_mono (keeps_prefix List.prefix_rfl fun _ x => x.imp id fun y => Nat.le_trans (prefix_len p) y) (keeps_prefix List.prefix_rfl fun _ x => x) fs _ _ x2⟩
          · exact ⟨p, rfl, rfl, x, freads_mono (keep_old p) (keep_old p) fs _ _ hos⟩
          · exact ⟨p, rfl, rfl, x, freads_mono (keep_old p) (keep_old p) fs _ _ hos⟩
    · exact skip
end

mutual
/-- Types without an `enc.Node` anywhere. enc/handler.go L102-107. -/
def NodeFree : Ty → Bool
  | .node => false
  | .ptr t | .slice t | .array _ t | .map _ t => NodeFree t
  | .struct fs => NodeFreeF fs
  | _ => true
/-- enc/handler.go L277-316. -/
def NodeFreeF : Fields → Bool
  | .nil => true
  | .cons _ t fs => NodeFree t && NodeFreeF fs
end

mutual
theorem reads_free {X : Ext} {P R R' : Nat → Prop} {m : Mem X} : ∀ (t : Ty) (a : LV X t) (b : Val X t), NodeFree t = true → Reads P R m t a b → Reads P R' m t a b
  | .bool, _, _, _, h | .int _, _, _, _, h | .uint _, _, _, _, h | .float64, _, _, _, h | .float32, _, _, _, h | .string, _, _, _, h | .time, _, _, _, h
  | .encTime, _, _, _, h | .encDur, _, _, _, h | .func, _, _, _, h | .chan, _, _, _, h | .iface, _, _, _, h | .any, _, _, _, h => h
  | .ptr t, _, _, f, h => Opt.imp (fun _ b ⟨p, v, e, r⟩ => ⟨p, v, e, reads_free t v b f r⟩) h
  | .slice t, _, _, f, h => Opt.imp (fun _ _ ⟨p, l, e, le, r⟩ => ⟨p, l, e, le, All2.imp (fun a b => reads_free t a b f) r⟩) h
  | .array _ t, _, _, f, h => All2.imp (fun a b => reads_free t a b f) h
  | .map _ t, _, _, f, h => Opt.imp (fun _ _ ⟨p, l, e, r⟩ => ⟨p, l, e, Ents.imp (fun a b => reads_free t a b f) r⟩) h
  | .struct fs, a, b, f, h => freads_free fs a b f h
theorem freads_free {X : Ext} {P R R' : Nat → Prop} {m : Mem X} : ∀ (fs : Fields) (a : LFVals X fs) (b : FVals X fs), NodeFreeF fs = true → FReads P R m fs a b → FReads P R' m fs a b
  | .nil, _, _, _, _ => trivial
  | .cons _ t fs, (a, as), (b, bs), f, ⟨h, hs⟩ => by
    simp only [NodeFreeF, Bool.and_eq_true] at f
    exact ⟨reads_free t a b f.1 h, freads_free fs as bs f.2 hs⟩
end

theorem perm_lift {α β : Type} (f : α → β) {a b : List β} (h : a.Perm b) : ∀ l : List α, l.map f = a → ∃ l' : List α, l'.Perm l ∧ l'.map f = b := by
  induction h with
  | nil => intro l e; exact ⟨l, .refl _, e⟩
  | cons x _ ih =>
    intro l e
    cases l with
    | nil => simp at e
    | cons y l =>
      simp only [List.map_cons, List.cons.injEq] at e
      obtain ⟨l', p, q⟩ := ih l e.2
      exact ⟨y :: l', .cons y p, by simp [q, e.1]⟩
  | swap x y l0 =>
    intro l e
    rcases l with _ | ⟨u, _ | ⟨w, l⟩⟩
    · simp at e
    · simp at e
    · simp only [List.map_cons, List.cons.injEq] at e
      exact ⟨w :: u :: l, .swap .., by simp [e.1, e.2.1, e.2.2]⟩
  | trans _ _ ih1 ih2 =>
    intro l e
    obtain ⟨l1, p1, q1⟩ := ih1 l e
    obtain ⟨l2, p2, q2⟩ := ih2 l1 q1
    exact ⟨l2, p2.trans p1, q2⟩

/-- Every order of the entries of maps is one of their located entries. -/
theorem order_exists (X : Ext) (O : Order) : Nonempty (LOrder X O) := by
  have h : ∀ l : List (Str × LNode X), ∃ l' : List (Str × LNode X), l'.Perm l ∧ eraseM l' = O.perm (eraseM l) := by
    intro l
    obtain ⟨l', p, q⟩ := perm_lift (fun e : Str × LNode X => (e.1, e.2.erase)) (O.isPerm (eraseM l)).symm l (eraseM_map l).symm
    exact ⟨l', p, by rw [eraseM_map]; exact q⟩
  exact ⟨⟨fun l => (h l).choose, fun l => (h l).choose_spec.1, fun l => (h l).choose_spec.2⟩⟩

section
variable {X : Ext} {O : Order} (H : Handler X) (L : LOrder X O)

/-- **C162.** With a memory, `Unmarshal` does what it does on values, whatever the variable holds before: the variable then leads to that value, by way of the cells it led to before, new ones,
and, for what its nodes lead to, those of the node that was read. -/
theorem C162_refines (t : Ty) (P R Q : Nat → Prop) (n : LNode X) (old : LV X t) (v : Val X t) (m : Mem X) (hq : ∀ a, Q a → a < m.length) (hn : Holds Q m n)
    (hv : Reads P R m t old v) :
    let r := hUnmarshal H L t n old m
    let o := unmarshal H O t n.erase v
    r.st = o.st ∧ r.calls = o.calls ∧ Reads (fun a => P a ∨ m.length ≤ a) (fun a => R a ∨ Q a) r.mem t r.val o.val := by
  obtain ⟨_, s, c, x⟩ := un_ok H L t P R n old v m hq hn hv
  exact ⟨s, c, x⟩

/-- **C162.** Whatever else there is in memory stays as it is, even if the variable leads to it, and even if the call fails: no other variable changes its value, of whatever type, and neither does
the node. -/
theorem C162_frame (t : Ty) (P R Q : Nat → Prop) (n : LNode X) (old : LV X t) (v : Val X t) (m : Mem X) (hq : ∀ a, Q a → a < m.length) (hn : Holds Q m n)
    (hv : Reads P R m t old v) :
    let r := hUnmarshal H L t n old m
    (∀ a, a < m.length → r.mem[a]? = m[a]?) ∧
    (∀ (u : Ty) (w : LV X u) (x : Val X u) (P' R' : Nat → Prop), Reads P' R' m u w x → Reads P' R' r.mem u w x) ∧ Holds Q r.mem n := by
  obtain ⟨p, _, _, _⟩ := un_ok H L t P R n old v m hq hn hv
  refine ⟨fun a h => ?_, fun u w x P' R' h => reads_mono (keeps_prefix p fun _ x => x) (keeps_prefix p fun _ x => x) u w x h,
    holds_mono (keeps_prefix p fun _ x => x) n hn⟩
  obtain ⟨s, e⟩ := p
  rw [← e, List.getElem?_append_left h]

/-- **C162, without nodes.** The value of a new variable of a type without nodes is its own: whatever is done later to the node, or to anything else that was there before, does not change it.
Missing: types with nodes, for which it is not so. -/
theorem C162_own_partial (t : Ty) (hf : NodeFree t = true) (Q : Nat → Prop) (n : LNode X) (m : Mem X) (hq : ∀ a, Q a → a < m.length) (hn : Holds Q m n) :
    let r := hUnmarshal H L t n (hZero X t) m
    ∀ later : Mem X, (∀ a, m.length ≤ a → a < r.mem.length → later[a]? = r.mem[a]?) →
      Reads (fun a => m.length ≤ a ∧ a < r.mem.length) (fun _ => False) later t r.val (unmarshal H O t n.erase (zero X t)).val := by
  intro r later hl
  obtain ⟨_, _, _, x⟩ := un_ok H L t (fun _ => False) (fun _ => False) n (hZero X t) (zero X t) m hq hn (zero_reads _ _ m t)
  have x1 := reads_free (R' := fun _ => False) t _ _ hf x
  refine reads_mono ?_ (fun _ _ h => h.elim) t _ _ x1
  intro a c h e
  have lo : m.length ≤ a := h.elim False.elim id
  have hi : a < r.mem.length := (List.getElem?_eq_some_iff.1 e).1
  exact ⟨⟨lo, hi⟩, by rw [hl a lo hi]; exact e⟩

/-- **C162, without nodes.** What is made of the same node twice has nothing in common: doing anything to all that one of the values leads to does not change the other.
Missing: types with nodes, for which it is not so. -/
theorem C162_twice_partial (t u : Ty) (hf : NodeFree t = true) (hg : NodeFree u = true) (Q : Nat → Prop) (n : LNode X) (m : Mem X) (hq : ∀ a, Q a → a < m.length) (hn : Holds Q m n) :
    let r := hUnmarshal H L t n (hZero X t) m
    let s := hUnmarshal H L u n (hZero X u) r.mem
    ∃ A B : Nat → Prop, (∀ a, A a → B a → False) ∧
      Reads A (fun _ => False) s.mem t r.val (unmarshal H O t n.erase (zero X t)).val ∧ Reads B (fun _ => False) s.mem u s.val (unmarshal H O u n.erase (zero X u)).val := by
  intro r s
  obtain ⟨p, _, _, _⟩ := un_ok H L t (fun _ => False) (fun _ => False) n (hZero X t) (zero X t) m hq hn (zero_reads _ _ m t)
  have hq' : ∀ a, Q a → a < r.mem.length := fun a x => Nat.lt_of_lt_of_le (hq a x) (prefix_len p)
  have hn' : Holds Q r.mem n := holds_mono (keeps_prefix p fun _ x => x) n hn
  obtain ⟨p', _, _, _⟩ := un_ok H L u (fun _ => False) (fun _ => False) n (hZero X u) (zero X u) r.mem hq' hn' (zero_reads _ _ _ u)
  have a := C162_own_partial H L t hf Q n m hq hn s.mem (fun a _ hi => by
    obtain ⟨y, e⟩ := p'
    show (hUnmarshal H L u n (hZero X u) r.mem).mem[a]? = _
    rw [← e, List.getElem?_append_left hi])
  have b := C162_own_partial H L u hg Q n r.mem hq' hn' s.mem (fun _ _ _ => rfl)
  exact ⟨_, _, fun x h1 h2 => Nat.lt_irrefl x (Nat.lt_of_lt_of_le h1.2 h2.1), a, b⟩

/-- `Unmarshal` of a node into the variable that a pointer leads to. enc/handler.go L43-49. -/
def hUnmarshalAt (t : Ty) (n : LNode X) (old : LV X t) (p : Nat) (m : Mem X) : Mem X :=
  let r := hUnmarshal H L t n old m
  r.mem.set p (.var t r.val)

/-- **C162.** A variable in memory: of all that was there, nothing but the variable is written, and it then has the value it should have, unless it led to itself. -/
theorem C162_variable (t : Ty) (P R Q : Nat → Prop) (n : LNode X) (old : LV X t) (v : Val X t) (p : Nat) (m : Mem X) (hq : ∀ a, Q a → a < m.length) (hn : Holds Q m n)
    (hp : m[p]? = some (.var t old)) (hv : Reads P R m t old v) (hP : ¬ P p) (hR : ¬ R p) (hQ : ¬ Q p) :
    let m' := hUnmarshalAt H L t n old p m
    (∀ a, a < m.length → a ≠ p → m'[a]? = m[a]?) ∧
    ∃ new, m'[p]? = some (.var t new) ∧ Reads (fun a => P a ∨ m.length ≤ a) (fun a => R a ∨ Q a) m' t new (unmarshal H O t n.erase v).val := by
  have f := (C162_frame H L t P R Q n old v m hq hn hv).1
  have g := (C162_refines H L t P R Q n old v m hq hn hv).2.2
  have hl := (List.getElem?_eq_some_iff.1 hp).1
  have hl' : p < (hUnmarshal H L t n old m).mem.length := by
    have := f p hl
    rw [hp] at this
    exact (List.getElem?_eq_some_iff.1 this).1
  refine ⟨fun a h ne => ?_, _, ?_, reads_mono (keeps_set fun a x => ?_) (keeps_set fun a x => ?_) t _ _ g⟩
  · show ((hUnmarshal H L t n old m).mem.set p _)[a]? = _
    rw [List.getElem?_set_ne (fun x => ne x.symm)]
    exact f a h
  · show ((hUnmarshal H L t n old m).mem.set p _)[p]? = _
    rw [List.getElem?_set_self hl']
  · refine ⟨?_, x⟩
    rcases x with x | x
    · exact fun e => hP (e ▸ x)
    · omega
  · refine ⟨?_, x⟩
    rcases x with x | x
    · exact fun e => hR (e ▸ x)
    · exact fun e => hQ (e ▸ x)

/-- **C162, violated.** A node variable shares the node: emptying the list that was read empties what was made of it, in a struct as well. -/
theorem C162_list_violated (n : LNode X) (ns : List (LNode X)) (a : Nat) (old : Option (HNode X)) (m : Mem X) (ha : a < m.length) (hn : n = .list a ns) :
    let r := hUnmarshal H L .node n old m
    Reads (fun _ => False) (· = a) (r.mem.set a (.nodes [])) .node r.val (some (.list [])) := by
  subst hn
  exact ⟨rfl, [], by simp [hUnmarshal, ha], trivial⟩

/-- **C162, violated.** And taking a key out of the map that was read takes it out of what was made of it. -/
theorem C162_map_violated (n : LNode X) (ns : List (Str × LNode X)) (a : Nat) (old : Option (HNode X)) (m : Mem X) (ha : a < m.length) (hn : n = .map a ns) :
    let r := hUnmarshal H L .node n old m
    Reads (fun _ => False) (· = a) (r.mem.set a (.nodeMap [])) .node r.val (some (.map [])) := by
  subst hn
  exact ⟨rfl, [], by simp [hUnmarshal, ha], trivial⟩

/-- `struct { S []string; N enc.Node }`. -/
def exTy : Fields := .cons { name := lit "S" } (.slice .string) (.cons { name := lit "N" } .node .nil)
/-- A map of two keys that share a list `["a"]`. -/
def exNode : LNode X := .map 0 [(lit "N", .list 1 [.leaf (.str (lit "a"))]), (lit "S", .list 1 [.leaf (.str (lit "a"))])]
/-- The memory it is in, and an array `["x"]` that the slice of the struct leads to. -/
def exMem : Mem X := [.nodeMap [(lit "N", .list 1), (lit "S", .list 1)], .nodes [.leaf (.str (lit "a"))], .arr .string [lit "x"]]

example : Holds (X := X) (· < 2) exMem exNode := by
  refine ⟨by decide, rfl, ?_, ?_, trivial⟩ <;> exact ⟨by decide, rfl, rfl, trivial⟩

/-- The old array stays, the slice gets a new one, and the node is the old one. -/
example : let r := hUnmarshal ⟨none⟩ L (.struct exTy) exNode ((some (2, 0, 1) : Option (Nat × Nat × Nat)), (none : Option (HNode X)), ()) exMem
    r.mem = exMem ++ [.arr .string [lit "a"]] ∧ r.val = ((some (3, 0, 1) : Option (Nat × Nat × Nat)), (some (.list 1) : Option (HNode X)), ()) ∧ r.st = .ok := by
  have t1 : parseTag { name := lit "S" } = some ⟨lit "S", lit "S", false, false⟩ := by decide +kernel
  have t2 : parseTag { name := lit "N" } = some ⟨lit "N", lit "N", false, false⟩ := by decide +kernel
  have l1 : ∀ a b : LNode X, lookupKey (lit "S") [(lit "N", a), (lit "S", b)] = some b := fun _ _ => rfl
  have l2 : ∀ a b : LNode X, lookupKey (lit "N") [(lit "N", a), (lit "S", b)] = some a := fun _ _ => rfl
  simp only [hUnmarshal, hObject, exNode, exTy, hFields, t1, t2, l1, l2, if_true]
  refine ⟨rfl, rfl, rfl⟩

end

end Verif.Enc.Heap

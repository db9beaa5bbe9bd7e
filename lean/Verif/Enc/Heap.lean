import Verif.Enc.Unmarshal
/-!
# What `Unmarshal` writes, and what its result shares (enc/handler.go L43-160 and the `unmarshalInto` methods)

Enc/Unmarshal.lean treats values as values: it can not say whether two of them share an array, a map or a variable. Here the variables, arrays and maps that
pointers, slices, maps, `any`s and nodes lead to are cells of a memory, and `hUnmarshal` follows the code with such a memory: `reflect.New`, `reflect.MakeSlice`
and `reflect.MakeMap` add cells, and what is set through them is written there.

* An address is the index of a cell; cells are only ever added (what is no longer reachable stays).
* A pointer leads to a whole variable, a slice to a part of an array. The arrays of `enc.List` and `enc.Pairs` are taken whole.
* The node that is read is given together with the addresses of its parts (`LNode`); `Unmarshal` does not change them.
* Strings are values. Texts (`json.RawMessage`) and types with their own methods are as in Enc/Types.lean.
-/
set_option autoImplicit false
namespace Verif.Enc.Heap
open Verif.Strconv Verif.Enc

/-- What an `enc.Node` variable holds: a scalar, or where its list, map or pairs are. enc/enc.go L12-17, enc/list.go L11, enc/map.go L14, enc/pairs.go L14. -/
inductive HNode (X : Ext) where
  | leaf (n : Node X)
  | list (a : Nat)
  | map (a : Nat)
  | pairs (a : Nat)

/-- What an `any` holds. enc/list.go L15-22, enc/map.go L18-24. -/
inductive HAny (X : Ext) where
  | leaf (x : Any X)
  | list (a : Nat)
  | map (a : Nat)

mutual
/-- What a variable of a type holds by itself: arrays and structs hold their parts, the rest is a scalar or leads elsewhere. enc/handler.go L175-318. -/
def LV (X : Ext) : Ty → Type
  | .bool => Bool
  | .int w => BitVec w.bits
  | .uint w => BitVec w.bits
  | .float64 => X.F
  | .float32 => X.F
  | .string => Str
  | .any => HAny X
  | .node => Option (HNode X)
  | .time => X.T
  | .encTime => X.T
  | .encDur => Int
  | .func => Option Nat
  | .chan => Option Nat
  | .iface => Unit
  | .ptr _ => Option Nat
  | .slice _ => Option (Nat × Nat × Nat)
  | .array n t => { l : List (LV X t) // l.length = n }
  | .map _ _ => Option Nat
  | .struct fs => LFVals X fs
/-- the fields. enc/handler.go L277-316. -/
def LFVals (X : Ext) : Fields → Type
  | .nil => Unit
  | .cons _ t fs => LV X t × LFVals X fs
end

/-- A cell: a variable, an array, a map, or an array or map of nodes or `any`s. enc/handler.go L63-67, enc/list.go L16, L48, enc/map.go L19, L55, enc/pairs.go L14. -/
inductive Cell (X : Ext) where
  | var (t : Ty) (v : LV X t)
  | arr (t : Ty) (l : List (LV X t))
  | mp (t : Ty) (m : List (Str × LV X t))
  | anys (l : List (HAny X))
  | anyMap (m : List (Str × HAny X))
  | nodes (l : List (HNode X))
  | nodeMap (m : List (Str × HNode X))
  | nodePairs (l : List ((Str × Str) × HNode X))

/-- The memory. enc/handler.go L43-160. -/
abbrev Mem (X : Ext) := List (Cell X)

/-- Related element by element. enc/list.go L47-58. -/
inductive All2 {α β : Type} (r : α → β → Prop) : List α → List β → Prop where
  | nil : All2 r [] []
  | cons {a : α} {b : β} {l : List α} {l' : List β} : r a b → All2 r l l' → All2 r (a :: l) (b :: l')

/-- Both nil, or both not and related. enc/handler.go L60-73. -/
def Opt {α β : Type} (r : α → β → Prop) : Option α → Option β → Prop
  | none, none => True
  | some a, some b => r a b
  | _, _ => False

/-- The same keys, with related values. enc/map.go L51-87. -/
def Ents {α β : Type} (r : α → β → Prop) : List (Str × α) → List (Str × β) → Prop := All2 fun a b => a.1 = b.1 ∧ r a.2 b.2

/-- Nodes without parts. enc/nil.go, enc/scalar.go, enc/numeric.go, enc/time.go. -/
def scalarNode {X : Ext} : Node X → Bool
  | .list _ | .map _ | .pairs _ => false
  | _ => true

/-- enc/nil.go L13, enc/scalar.go L14, L72, enc/numeric.go L37, L56, L113-119. -/
def scalarAny {X : Ext} : Any X → Bool
  | .list _ | .map _ => false
  | _ => true

mutual
/-- The node that a variable leads to, all of it in the cells `P`. enc/list.go L11, enc/map.go L14, enc/pairs.go L14. -/
def NReads {X : Ext} (P : Nat → Prop) (m : Mem X) : HNode X → Node X → Prop
  | .list a, .list l => P a ∧ ∃ hs, m[a]? = some (.nodes hs) ∧ NReadsL P m hs l
  | .map a, .map l => P a ∧ ∃ hs, m[a]? = some (.nodeMap hs) ∧ NReadsM P m hs l
  | .pairs a, .pairs l => P a ∧ ∃ hs, m[a]? = some (.nodePairs hs) ∧ NReadsP P m hs l
  | .leaf n', n => n' = n ∧ scalarNode n = true
  | _, _ => False
/-- enc/list.go L11. -/
def NReadsL {X : Ext} (P : Nat → Prop) (m : Mem X) : List (HNode X) → List (Node X) → Prop
  | [], [] => True
  | h :: hs, n :: l => NReads P m h n ∧ NReadsL P m hs l
  | _, _ => False
/-- enc/map.go L14. -/
def NReadsM {X : Ext} (P : Nat → Prop) (m : Mem X) : List (Str × HNode X) → List (Str × Node X) → Prop
  | [], [] => True
  | (k, h) :: hs, (k', n) :: l => k = k' ∧ NReads P m h n ∧ NReadsM P m hs l
  | _, _ => False
/-- enc/pairs.go L14. -/
def NReadsP {X : Ext} (P : Nat → Prop) (m : Mem X) : List ((Str × Str) × HNode X) → List ((Str × Str) × Node X) → Prop
  | [], [] => True
  | (k, h) :: hs, (k', n) :: l => k = k' ∧ NReads P m h n ∧ NReadsP P m hs l
  | _, _ => False
end

mutual
/-- The value that an `any` leads to. enc/list.go L15-22, enc/map.go L18-24. -/
def AReads {X : Ext} (P : Nat → Prop) (m : Mem X) : HAny X → Any X → Prop
  | .list a, .list l => P a ∧ ∃ hs, m[a]? = some (.anys hs) ∧ AReadsL P m hs l
  | .map a, .map l => P a ∧ ∃ hs, m[a]? = some (.anyMap hs) ∧ AReadsM P m hs l
  | .leaf x', x => x' = x ∧ scalarAny x = true
  | _, _ => False
/-- enc/list.go L15-22. -/
def AReadsL {X : Ext} (P : Nat → Prop) (m : Mem X) : List (HAny X) → List (Any X) → Prop
  | [], [] => True
  | h :: hs, n :: l => AReads P m h n ∧ AReadsL P m hs l
  | _, _ => False
/-- enc/map.go L18-24. -/
def AReadsM {X : Ext} (P : Nat → Prop) (m : Mem X) : List (Str × HAny X) → List (Str × Any X) → Prop
  | [], [] => True
  | (k, h) :: hs, (k', n) :: l => k = k' ∧ AReads P m h n ∧ AReadsM P m hs l
  | _, _ => False
end

mutual
/-- The value of a variable: what is found by following it through the memory, looking at no cells but `P`, and `R` for what its nodes lead to.
enc/handler.go L175-318. -/
def Reads {X : Ext} (P R : Nat → Prop) (m : Mem X) : (t : Ty) → LV X t → Val X t → Prop
  | .bool, a, b => (a : Bool) = b
  | .int w, a, b => (a : BitVec w.bits) = b
  | .uint w, a, b => (a : BitVec w.bits) = b
  | .float64, a, b => (a : X.F) = b
  | .float32, a, b => (a : X.F) = b
  | .string, a, b => (a : Str) = b
  | .any, a, b => AReads P m a b
  | .node, a, b => Opt (NReads R m) a b
  | .time, a, b => (a : X.T) = b
  | .encTime, a, b => (a : X.T) = b
  | .encDur, a, b => (a : Int) = b
  | .func, a, b => (a : Option Nat) = b
  | .chan, a, b => (a : Option Nat) = b
  | .iface, _, _ => True
  | .ptr t, a, b => Opt (fun a b => P a ∧ ∃ v, m[a]? = some (.var t v) ∧ Reads P R m t v b) a b
  | .slice t, a, b => Opt (fun (a : Nat × Nat × Nat) b => P a.1 ∧ ∃ l, m[a.1]? = some (.arr t l) ∧ a.2.1 + a.2.2 ≤ l.length ∧
      All2 (Reads P R m t) ((l.drop a.2.1).take a.2.2) b) a b
  | .array _ t, a, b => All2 (Reads P R m t) a.val b.val
  | .map _ t, a, b => Opt (fun a b => P a ∧ ∃ l, m[a]? = some (.mp t l) ∧ Ents (Reads P R m t) l b) a b
  | .struct fs, a, b => FReads P R m fs a b
/-- the fields. enc/handler.go L277-316. -/
def FReads {X : Ext} (P R : Nat → Prop) (m : Mem X) : (fs : Fields) → LFVals X fs → FVals X fs → Prop
  | .nil, _, _ => True
  | .cons _ t fs, (a, as), (b, bs) => Reads P R m t a b ∧ FReads P R m fs as bs
end

/-! ## The code -/

/-- A node together with where its parts are. enc/list.go L11, enc/map.go L14, enc/pairs.go L14. -/
inductive LNode (X : Ext) where
  | leaf (n : Node X)
  | list (a : Nat) (l : List (LNode X))
  | map (a : Nat) (m : List (Str × LNode X))
  | pairs (a : Nat) (l : List ((Str × Str) × LNode X))

mutual
/-- the node. enc/enc.go L12-17. -/
def LNode.erase {X : Ext} : LNode X → Node X
  | .leaf n => n
  | .list _ l => .list (eraseL l)
  | .map _ m => .map (eraseM m)
  | .pairs _ l => .pairs (eraseP l)
/-- enc/list.go L11. -/
def eraseL {X : Ext} : List (LNode X) → List (Node X)
  | [] => []
  | n :: l => n.erase :: eraseL l
/-- enc/map.go L14. -/
def eraseM {X : Ext} : List (Str × LNode X) → List (Str × Node X)
  | [] => []
  | (k, n) :: l => (k, n.erase) :: eraseM l
/-- enc/pairs.go L14. -/
def eraseP {X : Ext} : List ((Str × Str) × LNode X) → List ((Str × Str) × Node X)
  | [] => []
  | (k, n) :: l => (k, n.erase) :: eraseP l
end

/-- what a variable holds that holds the node. enc/handler.go L102-107. -/
def LNode.top {X : Ext} : LNode X → HNode X
  | .leaf n => .leaf n
  | .list a _ => .list a
  | .map a _ => .map a
  | .pairs a _ => .pairs a

mutual
/-- The memory does hold the node where it is said to be, in cells `Q`. enc/list.go L11, enc/map.go L14, enc/pairs.go L14. -/
def Holds {X : Ext} (Q : Nat → Prop) (m : Mem X) : LNode X → Prop
  | .leaf n => scalarNode n = true
  | .list a l => Q a ∧ m[a]? = some (.nodes (l.map LNode.top)) ∧ HoldsL Q m l
  | .map a l => Q a ∧ m[a]? = some (.nodeMap (l.map fun e => (e.1, e.2.top))) ∧ HoldsM Q m l
  | .pairs a l => Q a ∧ m[a]? = some (.nodePairs (l.map fun e => (e.1, e.2.top))) ∧ HoldsP Q m l
/-- enc/list.go L11. -/
def HoldsL {X : Ext} (Q : Nat → Prop) (m : Mem X) : List (LNode X) → Prop
  | [] => True
  | n :: l => Holds Q m n ∧ HoldsL Q m l
/-- enc/map.go L14. -/
def HoldsM {X : Ext} (Q : Nat → Prop) (m : Mem X) : List (Str × LNode X) → Prop
  | [] => True
  | (_, n) :: l => Holds Q m n ∧ HoldsM Q m l
/-- enc/pairs.go L14. -/
def HoldsP {X : Ext} (Q : Nat → Prop) (m : Mem X) : List ((Str × Str) × LNode X) → Prop
  | [] => True
  | (_, n) :: l => Holds Q m n ∧ HoldsP Q m l
end

/-- What a call leaves: the variable, the memory, how it ended, and the calls made to `UnhandledFields`. enc/handler.go L14-23, L43-160. -/
structure HOut (X : Ext) (α : Type) where
  val : α
  mem : Mem X
  st : Status
  calls : List (Str × Node X)

/-- A call that touches no memory. enc/handler.go L43-160. -/
def HOut.flat {X : Ext} {α : Type} (m : Mem X) (r : Out X α) : HOut X α := ⟨r.val, m, r.st, r.calls⟩

mutual
/-- `Node.native`: every list and map is made anew. enc/list.go L15-22, enc/map.go L18-24, enc/pairs.go L26-32. -/
def hNative {X : Ext} : LNode X → Mem X → HAny X × Mem X
  | .leaf n, m => (.leaf n.native, m)
  | .list _ l, m => let r := hListNative l m; (.list r.2.length, r.2 ++ [.anys r.1])
  | .map _ l, m => let r := hMapNative l m; (.map r.2.length, r.2 ++ [.anyMap (ofEntries r.1)])
  | .pairs _ l, m => let r := hPairsNative l m; (.map r.2.length, r.2 ++ [.anyMap (ofEntries r.1)])
/-- enc/list.go L15-22. -/
def hListNative {X : Ext} : List (LNode X) → Mem X → List (HAny X) × Mem X
  | [], m => ([], m)
  | n :: l, m => let r := hNative n m; let rs := hListNative l r.2; (r.1 :: rs.1, rs.2)
/-- enc/map.go L18-24. -/
def hMapNative {X : Ext} : List (Str × LNode X) → Mem X → List (Str × HAny X) × Mem X
  | [], m => ([], m)
  | (k, n) :: l, m => let r := hNative n m; let rs := hMapNative l r.2; ((k, r.1) :: rs.1, rs.2)
/-- enc/pairs.go L26-32. -/
def hPairsNative {X : Ext} : List ((Str × Str) × LNode X) → Mem X → List (Str × HAny X) × Mem X
  | [], m => ([], m)
  | ((k, _), n) :: l, m => let r := hNative n m; let rs := hPairsNative l r.2; ((k, r.1) :: rs.1, rs.2)
end

/-- Into an `any`: `Time` and `Duration` themselves, otherwise native values. enc/time.go L58-65, L88-95, enc/list.go L42-45, enc/map.go L118-123. -/
def hIntoAny {X : Ext} (n : LNode X) (m : Mem X) : HAny X × Mem X :=
  match n with
  | .leaf n => (.leaf n.intoAny, m)
  | n => hNative n m

/-- The order in which the entries of maps are visited, `O` with the addresses: the calls of `range` over a `Map`. enc/map.go L56, L108. -/
structure LOrder (X : Ext) (O : Order) where
  perm : List (Str × LNode X) → List (Str × LNode X)
  isPerm : ∀ l, (perm l).Perm l
  agrees : ∀ l, eraseM (perm l) = O.perm (eraseM l)

/-- Elements of a new slice or array, one after the other (enc/list.go L49-56, L66-72). -/
def hElems {X : Ext} {α : Type} (f : LNode X → Mem X → HOut X α) : List (LNode X) → Mem X → HOut X (List α)
  | [], m => ⟨[], m, .ok, []⟩
  | n :: l, m =>
    let r := f n m
    match r.st with
    | .ok => let rs := hElems f l r.mem; ⟨r.val :: rs.val, rs.mem, rs.st, r.calls ++ rs.calls⟩
    | s => ⟨[], r.mem, s, r.calls⟩

/-- Entries of a new map, one after the other (enc/map.go L56-85). -/
def hEntries {X : Ext} {α : Type} (k : KTy) (f : LNode X → Mem X → HOut X α) :
    List (Str × LNode X) → List (Str × α) → Mem X → HOut X (List (Str × α))
  | [], acc, m => ⟨acc, m, .ok, []⟩
  | (key, n) :: l, acc, m =>
    match normKey k key with
    | none => ⟨acc, m, .err, []⟩
    | some key' =>
      let r := f n m
      match r.st with
      | .ok => let rs := hEntries k f l (insertKey key' r.val acc) r.mem; ⟨rs.val, rs.mem, rs.st, r.calls ++ rs.calls⟩
      | s => ⟨acc, r.mem, s, r.calls⟩

/-- `p.JSON` to `p.Value`, the last one wins: a new map of the same nodes (enc/pairs.go L74-83). -/
def hAsMap {X : Ext} (l : List ((Str × Str) × LNode X)) : List (Str × LNode X) := ofEntries (l.map fun p => (p.1.2, p.2))

/-- into a pointer: a new variable, `z` at first, is set before it is filled (enc/handler.go L60-73) -/
def hPtr {X : Ext} {t : Ty} (f : LNode X → Mem X → HOut X (LV X t)) (z : LV X t) (n : LNode X) (m : Mem X) : HOut X (Option Nat) :=
  match n with
  | .leaf .nil => ⟨none, m, .ok, []⟩
  | n =>
    let r := f n (m ++ [.var t z])
    ⟨some m.length, r.mem.set m.length (.var t r.val), r.st, r.calls⟩

/-- into a slice: a new array, filled, then set (enc/list.go L47-58) -/
def hSlice {X : Ext} {t : Ty} (f : LNode X → Mem X → HOut X (LV X t)) (z : LV X t) (n : LNode X) (old : Option (Nat × Nat × Nat)) (m : Mem X) :
    HOut X (Option (Nat × Nat × Nat)) :=
  match n with
  | .leaf .nil => ⟨none, m, .ok, []⟩
  | .list _ l =>
    let r := hElems f l (m ++ [.arr t (List.replicate l.length z)])
    match r.st with
    | .ok => ⟨some (m.length, 0, l.length), r.mem.set m.length (.arr t r.val), .ok, r.calls⟩
    | s => ⟨old, r.mem, s, r.calls⟩
  | _ => ⟨old, m, .err, []⟩

/-- into an array: a new array, filled, then copied (enc/list.go L60-74) -/
def hArray {X : Ext} {α : Type} (k : Nat) (f : LNode X → Mem X → HOut X α) (n : LNode X) (z old : { l : List α // l.length = k }) (m : Mem X) :
    HOut X { l : List α // l.length = k } :=
  match n with
  | .leaf .nil => ⟨z, m, .ok, []⟩
  | .list _ l =>
    if l.length = k then
      let r := hElems f l m
      match r.st with
      | .ok => ⟨if h : r.val.length = k then ⟨r.val, h⟩ else old, r.mem, .ok, r.calls⟩
      | s => ⟨old, r.mem, s, r.calls⟩
    else ⟨old, m, .err, []⟩
  | _ => ⟨old, m, .err, []⟩

/-- into a map: a new map, filled, then set (enc/map.go L51-87) -/
def hMapOf {X : Ext} {O : Order} {t : Ty} (L : LOrder X O) (k : KTy) (f : LNode X → Mem X → HOut X (LV X t)) (ents : List (Str × LNode X))
    (old : Option Nat) (m : Mem X) : HOut X (Option Nat) :=
  let r := hEntries k f (L.perm ents) [] (m ++ [.mp t []])
  match r.st with
  | .ok => ⟨some m.length, r.mem.set m.length (.mp t r.val), .ok, r.calls⟩
  | s => ⟨old, r.mem, s, r.calls⟩

/-- into a map (enc/map.go L51-87, enc/pairs.go L74-83) -/
def hMap {X : Ext} {O : Order} {t : Ty} (L : LOrder X O) (k : KTy) (f : LNode X → Mem X → HOut X (LV X t)) (n : LNode X) (old : Option Nat)
    (m : Mem X) : HOut X (Option Nat) :=
  match n with
  | .leaf .nil => ⟨none, m, .ok, []⟩
  | .map _ l => hMapOf L k f l old m
  | .pairs _ l => hMapOf L k f (hAsMap l) old m
  | _ => ⟨old, m, .err, []⟩

/-- unknown keys are reported after all fields are set (enc/map.go L107-117) -/
def hStruct {X : Ext} {α : Type} (H : Handler X) {O : Order} (L : LOrder X O) (fs : Fields) (ents : List (Str × LNode X)) (r : HOut X α) : HOut X α :=
  match r.st with
  | .ok =>
    let p := match H.unhandled with
      | none => (Status.ok, [])
      | some cb => reportAll cb ((eraseM (L.perm ents)).filter fun e => !(seenNames fs).contains e.1)
    ⟨r.val, r.mem, p.1, r.calls ++ p.2⟩
  | s => ⟨r.val, r.mem, s, r.calls⟩

/-- into a struct, given how to set the fields (enc/map.go L89-117, enc/pairs.go L74-83) -/
def hObject {X : Ext} {α : Type} (H : Handler X) {O : Order} (L : LOrder X O) (fs : Fields) (f : List (Str × LNode X) → Mem X → HOut X α) (n : LNode X)
    (z old : α) (m : Mem X) : HOut X α :=
  match n with
  | .leaf .nil => ⟨z, m, .ok, []⟩
  | .map _ l => hStruct H L fs l (f l m)
  | .pairs _ l => hStruct H L fs (hAsMap l) (f (hAsMap l) m)
  | _ => ⟨old, m, .err, []⟩

mutual
/-- The zero value (`reflect.Zero`). enc/handler.go L63, L66. -/
def hZero (X : Ext) : (t : Ty) → LV X t
  | .bool => (false : Bool)
  | .int w => (0 : BitVec w.bits)
  | .uint w => (0 : BitVec w.bits)
  | .float64 => X.fZero
  | .float32 => X.fZero
  | .string => ([] : Str)
  | .any => HAny.leaf Any.nil
  | .node => (none : Option (HNode X))
  | .time => X.tZero
  | .encTime => X.tZero
  | .encDur => (0 : Int)
  | .func => (none : Option Nat)
  | .chan => (none : Option Nat)
  | .iface => ()
  | .ptr _ => (none : Option Nat)
  | .slice _ => (none : Option (Nat × Nat × Nat))
  | .array n t => (⟨List.replicate n (hZero X t), by simp⟩ : { l : List (LV X t) // l.length = n })
  | .map _ _ => (none : Option Nat)
  | .struct fs => hZeroFields X fs
/-- zero values for all fields. enc/handler.go L66. -/
def hZeroFields (X : Ext) : (fs : Fields) → LFVals X fs
  | .nil => ()
  | .cons _ t fs => (hZero X t, hZeroFields X fs)
end

mutual
/-- `Handler.unmarshal` (enc/handler.go L51-160) into a variable of type `t` that holds `old`, with the memory. -/
def hUnmarshal {X : Ext} (H : Handler X) {O : Order} (L : LOrder X O) : (t : Ty) → LNode X → LV X t → Mem X → HOut X (LV X t)
  | .bool, n, old, m => .flat m (unmarshal H O .bool n.erase old)
  | .int w, n, old, m => .flat m (unmarshal H O (.int w) n.erase old)
  | .uint w, n, old, m => .flat m (unmarshal H O (.uint w) n.erase old)
  | .float64, n, old, m => .flat m (unmarshal H O .float64 n.erase old)
  | .float32, n, old, m => .flat m (unmarshal H O .float32 n.erase old)
  | .string, n, old, m => .flat m (unmarshal H O .string n.erase old)
  | .any, n, _, m => let r := hIntoAny n m; ⟨r.1, r.2, .ok, []⟩
  | .node, n, _, m => ⟨(some n.top : Option (HNode X)), m, .ok, []⟩
  | .time, n, old, m => .flat m (unmarshal H O .time n.erase old)
  | .encTime, n, old, m => .flat m (unmarshal H O .encTime n.erase old)
  | .encDur, n, old, m => .flat m (unmarshal H O .encDur n.erase old)
  | .func, n, old, m => .flat m (unmarshal H O .func n.erase old)
  | .chan, n, old, m => .flat m (unmarshal H O .chan n.erase old)
  | .iface, n, old, m => .flat m (unmarshal H O .iface n.erase old)
  | .ptr t, n, _, m => hPtr (fun n m => hUnmarshal H L t n (hZero X t) m) (hZero X t) n m
  | .slice t, n, old, m => hSlice (fun n m => hUnmarshal H L t n (hZero X t) m) (hZero X t) n old m
  | .array k t, n, old, m => hArray k (fun n m => hUnmarshal H L t n (hZero X t) m) n (hZero X (.array k t)) old m
  | .map k t, n, old, m => hMap L k (fun n m => hUnmarshal H L t n (hZero X t) m) n old m
  | .struct fs, n, old, m => hObject H L fs (fun e m => hFields H L fs e old m) n (hZeroFields X fs) old m
/-- the fields of a struct, in order (enc/map.go L92-106) -/
def hFields {X : Ext} (H : Handler X) {O : Order} (L : LOrder X O) : (fs : Fields) → List (Str × LNode X) → LFVals X fs → Mem X → HOut X (LFVals X fs)
  | .nil, _, _, m => ⟨(), m, .ok, []⟩
  | .cons f t fs, e, (v, vs), m =>
    if f.exported then
      match parseTag f with
      | none => ⟨(v, vs), m, .panic, []⟩
      | some tag => match lookupKey tag.json e with
        | none => let rs := hFields H L fs e vs m; ⟨(v, rs.val), rs.mem, rs.st, rs.calls⟩
        | some n =>
          let r := hUnmarshal H L t n v m
          match r.st with
          | .ok => let rs := hFields H L fs e vs r.mem; ⟨(r.val, rs.val), rs.mem, rs.st, r.calls ++ rs.calls⟩
          | s => ⟨(r.val, vs), r.mem, s, r.calls⟩
    else let rs := hFields H L fs e vs m; ⟨(v, rs.val), rs.mem, rs.st, rs.calls⟩
end

end Verif.Enc.Heap

import Verif.Enc.Marshal
/-!
# `Handler.Unmarshal` (enc/handler.go L43-160, and the `unmarshalInto` methods)

`Debugf` and the text of errors are not modelled; for `Factory` see Enc/Factory.lean. The variable written to is an argument, its new value a result: what was written before an
error stays written. The calls of `UnhandledFields` are part of the result.
-/
set_option autoImplicit false
namespace Verif.Enc
open Verif.Strconv

/-- How a call ended. enc/handler.go L43-160. -/
inductive Status where
  | ok | err | panic
deriving DecidableEq

/-- The variable afterwards, how the call ended, and the calls made to `UnhandledFields` (key and value). enc/handler.go L14-23, L43-160. -/
structure Out (X : Ext) (α : Type) where
  val : α
  st : Status
  calls : List (Str × Node X)

/-- A call that reports nothing. enc/handler.go L43-160. -/
def Out.mk' {X : Ext} {α : Type} (v : α) (s : Status) : Out X α := ⟨v, s, []⟩

/-- Success. enc/handler.go L43-160. -/
def Out.done {X : Ext} {α : Type} (v : α) : Out X α := ⟨v, .ok, []⟩

/-- `Handler`: the callback, if any; it returns whether it fails. enc/handler.go L14-23; `Factory` is modelled in Enc/Factory.lean, `Debugf` not. -/
structure Handler (X : Ext) where
  unhandled : Option (Str → Node X → Bool)

mutual
/-- `Node.native` (enc/nil.go L13, scalar.go L14, L72, numeric.go L37, L56, L113-119, list.go L15-22, map.go L18-24, pairs.go L26-32, time.go L18, L76). -/
def Node.native {X : Ext} : Node X → Any X
  | .nil => .nil
  | .bool b => .bool b
  | .str s => .str s
  | .int i => .i64 i
  | .float f => .f64 f
  | .digits s => match X.fParse s with
    | some f => .f64 f
    | none => .str s
  | .list l => .list (Node.listNative l)
  | .map m => .map (ofEntries (Node.mapNative m))
  | .pairs l => .map (ofEntries (Node.pairsNative l))
  | .time t => .time t
  | .dur d => .dur d
/-- enc/list.go L15-22. -/
def Node.listNative {X : Ext} : List (Node X) → List (Any X)
  | [] => []
  | n :: l => n.native :: Node.listNative l
/-- enc/map.go L18-24. -/
def Node.mapNative {X : Ext} : List (Str × Node X) → List (Str × Any X)
  | [] => []
  | (k, n) :: l => (k, n.native) :: Node.mapNative l
/-- `Pairs.native` uses the Go name of a field, not its JSON name. enc/pairs.go L26-32. -/
def Node.pairsNative {X : Ext} : List ((Str × Str) × Node X) → List (Str × Any X)
  | [] => []
  | ((k, _), n) :: l => (k, n.native) :: Node.pairsNative l
end

/-- `Pairs.AsMap` (enc/pairs.go L18-24), also the map built in `Pairs.unmarshalInto` (L74-83): by JSON name, the last one wins. -/
def asMap {X : Ext} (l : List ((Str × Str) × Node X)) : List (Str × Node X) := ofEntries (l.map fun p => (p.1.2, p.2))

/-- `trimDecimal` (enc/numeric.go L79-84): what precedes the first dot. -/
def trimDecimal (s : Str) : Str := s.takeWhile (· ≠ '.')

/-- `Int64` (enc/numeric.go L32, L51, L69-73); nothing if the node is not numeric or the conversion fails. -/
def Node.int64 {X : Ext} : Node X → Option Int
  | .int i => some i
  | .float f => some (X.fToInt f)
  | .digits s => parseInt (trimDecimal s)
  | _ => none

/-- `Uint64` (enc/numeric.go L33, L52, L74-78). -/
def Node.uint64 {X : Ext} : Node X → Option Int
  | .int i => some (BitVec.ofInt 64 i).toNat
  | .float f => some (X.fToUint f)
  | .digits s => (parseUint (trimDecimal s)).map fun n => (n : Int)
  | _ => none

/-- `Float64` (enc/numeric.go L34, L53, L85). -/
def Node.float64 {X : Ext} : Node X → Option X.F
  | .int i => some (X.fOfInt i)
  | .float f => some f
  | .digits s => X.fParse s
  | _ => none

/-- `String` of a numeric node (enc/numeric.go L35, L54, L86). -/
def Node.numStr {X : Ext} : Node X → Option Str
  | .int i => some (fmtInt i)
  | .float f => some (X.fStr f)
  | .digits s => some s
  | _ => none

/-- The string in the JSON text of a node, if it is one. enc/time.go L49-56, L117-124. -/
def Node.jsonString {X : Ext} : Node X → Option Str
  | .str s => some s
  | .time t => some (X.tFmt t)
  | .dur d => some (if d = 0 then [] else X.dStr d)
  | _ => none

/-- `Duration.Parse` (enc/time.go L104-115). -/
def durParse (X : Ext) (s : Str) : Option Int := if s = [] then some 0 else X.dParse s

/-- A key of the target map from the key of the node (enc/map.go L57-78), as its text: `SetInt` and `SetUint` truncate; other kinds are given a string,
which they refuse. -/
def normKey : KTy → Str → Option Str
  | .str, k => some k
  | .int w, k => (parseInt k).map fun i => fmtInt (BitVec.ofInt w.bits i).toInt
  | .uint w, k => (parseUint k).map fun n => fmtInt (BitVec.ofNat w.bits n).toNat
  | .other, _ => none

/-- Unmarshalling element by element into fresh variables, stopping at the first failure (enc/list.go L49-56, L66-72). -/
def uElems {X : Ext} {α : Type} (f : Node X → Out X α) : List (Node X) → Out X (List α)
  | [] => .done []
  | n :: l =>
    let r := f n
    match r.st with
    | .ok => let rs := uElems f l; ⟨r.val :: rs.val, rs.st, r.calls ++ rs.calls⟩
    | s => ⟨[], s, r.calls⟩

/-- Unmarshalling entry by entry into a fresh map, stopping at the first failure (enc/map.go L56-85). -/
def uEntries {X : Ext} {α : Type} (k : KTy) (f : Node X → Out X α) : List (Str × Node X) → List (Str × α) → Out X (List (Str × α))
  | [], acc => .done acc
  | (key, n) :: l, acc =>
    match normKey k key with
    | none => ⟨acc, .err, []⟩
    | some key' =>
      let r := f n
      match r.st with
      | .ok => let rs := uEntries k f l (insertKey key' r.val acc); ⟨rs.val, rs.st, r.calls ++ rs.calls⟩
      | s => ⟨acc, s, r.calls⟩

/-- Assigning a result, or leaving the variable alone on failure. enc/handler.go L87-94. -/
def Out.assign {X : Ext} {α β : Type} (r : Out X α) (f : α → β) (old : β) : Out X β :=
  match r.st with
  | .ok => ⟨f r.val, .ok, r.calls⟩
  | s => ⟨old, s, r.calls⟩

/-- The names `seen` in a struct (enc/map.go L90-97). -/
def seenNames : Fields → List Str
  | .nil => []
  | .cons f _ fs => if f.exported then (match parseTag f with | some tag => [tag.json] | none => []) ++ seenNames fs else seenNames fs

/-- Reporting unknown keys until the callback fails (enc/map.go L107-116). -/
def reportAll {X : Ext} (cb : Str → Node X → Bool) : List (Str × Node X) → Status × List (Str × Node X)
  | [] => (.ok, [])
  | (k, n) :: l => if cb k n then (.err, [(k, n)]) else let r := reportAll cb l; (r.1, (k, n) :: r.2)

/-- The unknown keys of an object, in the order they are visited. enc/map.go L95-125. -/
def unknown {X : Ext} (O : Order) (fs : Fields) (m : List (Str × Node X)) : List (Str × Node X) :=
  (O.perm m).filter fun e => !(seenNames fs).contains e.1

/-- `UnhandledFields`, after all fields (enc/map.go L107-116). -/
def report {X : Ext} (H : Handler X) (O : Order) (fs : Fields) (m : List (Str × Node X)) : Status × List (Str × Node X) :=
  match H.unhandled with
  | none => (.ok, [])
  | some cb => reportAll cb (unknown O fs m)

/-- Into `any` (the `reflect.Interface` cases): native values, except that `Time` and `Duration` are stored themselves (enc/time.go L58-65, L88-95). -/
def Node.intoAny {X : Ext} : Node X → Any X
  | .time t => .encTime t
  | .dur d => .encDur d
  | n => n.native

/-- Numeric targets: an error if the conversion fails, a panic for `Duration`, which is convertible but not assignable (enc/time.go L90-91). -/
def numOut {X : Ext} {α : Type} (n : Node X) (r : Option α) (old z : α) : Out X α :=
  match n with
  | .nil => .done z
  | .dur _ => .mk' old .panic
  | _ => match r with
    | some v => .done v
    | none => .mk' old .err

/-- unknown keys are reported after all fields are set (enc/map.go L107-117) -/
def uStruct {X : Ext} (H : Handler X) (O : Order) (fs : Fields) (m : List (Str × Node X)) (r : Out X (FVals X fs)) : Out X (FVals X fs) :=
  match r.st with
  | .ok => let p := report H O fs m; ⟨r.val, p.1, r.calls ++ p.2⟩
  | s => ⟨r.val, s, r.calls⟩

/-- into a `bool` (enc/scalar.go L92-103) -/
def uBool {X : Ext} (n : Node X) (old : Bool) : Out X Bool :=
  match n with
  | .nil => .done false
  | .bool b => .done b
  | _ => .mk' old .err

/-- into a `string` (enc/scalar.go L26-38, enc/numeric.go L157-158) -/
def uString {X : Ext} (n : Node X) (old : Str) : Out X Str :=
  match n with
  | .str s => .done s
  | n => numOut n n.numStr old []

/-- into a `time.Time`: `json.Unmarshal` of the encoded node (enc/handler.go L87-94); encoding panics where `Encode` does -/
def uTime {X : Ext} (n : Node X) (old : X.T) : Out X X.T :=
  if n.encodable then
    match n with
    | .nil => .done X.tZero
    | n => match n.jsonString.bind X.tStrict with
      | some t => .done t
      | none => .mk' old .err
  else .mk' old .panic

/-- into an `enc.Time`: `UnmarshalJSON` of the encoded node (enc/handler.go L95-101, enc/time.go L49-56); of a node that can not be encoded it is given nothing, which it refuses -/
def uEncTime {X : Ext} (n : Node X) (old : X.T) : Out X X.T :=
  match n.jsonString.bind X.tParse with
  | some t => .done t
  | none => .mk' old (if n.jsonPanics then .panic else .err)

/-- into an `enc.Duration` (enc/handler.go L95-101, enc/time.go L117-124); `null` leaves the string empty, which is zero -/
def uEncDur {X : Ext} (n : Node X) (old : Int) : Out X Int :=
  match n with
  | .nil => .done 0
  | n => match n.jsonString.bind (durParse X) with
    | some d => .done d
    | none => .mk' old (if n.jsonPanics then .panic else .err)

/-- into a function or channel: only nil. enc/nil.go L25-28 and the default cases of the `unmarshalInto` methods. -/
def uOpaque {X : Ext} (n : Node X) (old : Option Nat) : Out X (Option Nat) :=
  match n with
  | .nil => .done none
  | _ => .mk' old .err

/-- into an interface with methods: `into.Set` panics, except for nil, and for `Time` and `Duration`, which check first. enc/list.go L42-45, enc/numeric.go L154-156, enc/time.go L58-65, L88-95. -/
def uIface {X : Ext} (n : Node X) : Out X Unit :=
  match n with
  | .nil => .done ()
  | .time _ | .dur _ => .mk' () .err
  | _ => .mk' () .panic

/-- into a pointer: nil, or a fresh variable that is set before the rest is known to succeed (enc/handler.go L60-73) -/
def uPtr {X : Ext} {α : Type} (f : Node X → Out X α) (n : Node X) : Out X (Option α) :=
  match n with
  | .nil => .done none
  | n => let r := f n; ⟨some r.val, r.st, r.calls⟩

/-- into a slice (enc/list.go L47-58) -/
def uSlice {X : Ext} {α : Type} (f : Node X → Out X α) (n : Node X) (old : Option (List α)) : Out X (Option (List α)) :=
  match n with
  | .nil => .done none
  | .list l => (uElems f l).assign some old
  | _ => .mk' old .err

/-- into an array (enc/list.go L60-74) -/
def uArray {X : Ext} {α : Type} (k : Nat) (f : Node X → Out X α) (n : Node X) (z old : { l : List α // l.length = k }) : Out X { l : List α // l.length = k } :=
  match n with
  | .nil => .done z
  | .list l =>
    if l.length = k then (uElems f l).assign (fun vs => if h : vs.length = k then ⟨vs, h⟩ else old) old
    else .mk' old .err
  | _ => .mk' old .err

/-- into a map (enc/map.go L51-87, enc/pairs.go L74-83) -/
def uMap {X : Ext} {α : Type} (O : Order) (k : KTy) (f : Node X → Out X α) (n : Node X) (old : Option (List (Str × α))) : Out X (Option (List (Str × α))) :=
  match n with
  | .nil => .done none
  | .map m => (uEntries k f (O.perm m) []).assign some old
  | .pairs l => (uEntries k f (O.perm (asMap l)) []).assign some old
  | _ => .mk' old .err

/-- into a struct (enc/map.go L89-117, enc/pairs.go L74-83), given how to set the fields -/
def uObject {X : Ext} (H : Handler X) (O : Order) (fs : Fields) (f : List (Str × Node X) → Out X (FVals X fs)) (n : Node X) (old : FVals X fs) : Out X (FVals X fs) :=
  match n with
  | .nil => .done (zeroFields X fs)
  | .map m => uStruct H O fs m (f m)
  | .pairs l => uStruct H O fs (asMap l) (f (asMap l))
  | _ => .mk' old .err

mutual
/-- `Handler.unmarshal` (enc/handler.go L51-160) into a variable of type `t` that holds `old`. -/
def unmarshal {X : Ext} (H : Handler X) (O : Order) : (t : Ty) → Node X → Val X t → Out X (Val X t)
  | .bool, n, old => uBool n old
  | .int w, n, old => numOut (α := BitVec w.bits) n (n.int64.map (BitVec.ofInt w.bits)) old 0
  | .uint w, n, old => numOut (α := BitVec w.bits) n (n.uint64.map (BitVec.ofInt w.bits)) old 0
  | .float64, n, old => numOut (α := X.F) n n.float64 old X.fZero
  | .float32, n, old => numOut (α := X.F) n (n.float64.map X.f32) old X.fZero
  | .string, n, old => uString n old
  | .any, n, _ => .done n.intoAny
  | .node, n, _ => .done (some n : Option (Node X))
  | .time, n, old => uTime n old
  | .encTime, n, old => uEncTime n old
  | .encDur, n, old => uEncDur n old
  | .func, n, old => uOpaque n old
  | .chan, n, old => uOpaque n old
  | .iface, n, _ => uIface n
  | .ptr t, n, _ => uPtr (fun n => unmarshal H O t n (zero X t)) n
  | .slice t, n, old => uSlice (fun n => unmarshal H O t n (zero X t)) n old
  | .array k t, n, old => uArray k (fun n => unmarshal H O t n (zero X t)) n (zero X (.array k t)) old
  | .map k t, n, old => uMap O k (fun n => unmarshal H O t n (zero X t)) n old
  | .struct fs, n, old => uObject H O fs (fun m => uFields H O fs m old) n old
/-- the fields of a struct, in order (enc/map.go L92-106) -/
def uFields {X : Ext} (H : Handler X) (O : Order) : (fs : Fields) → List (Str × Node X) → FVals X fs → Out X (FVals X fs)
  | .nil, _, _ => .done ()
  | .cons f t fs, m, (v, vs) =>
    if f.exported then
      match parseTag f with
      | none => .mk' (v, vs) .panic
      | some tag => match lookupKey tag.json m with
        | none => let rs := uFields H O fs m vs; ⟨(v, rs.val), rs.st, rs.calls⟩
        | some n =>
          let r := unmarshal H O t n v
          match r.st with
          | .ok => let rs := uFields H O fs m vs; ⟨(r.val, rs.val), rs.st, r.calls ++ rs.calls⟩
          | s => ⟨(r.val, vs), s, r.calls⟩
    else let rs := uFields H O fs m vs; ⟨(v, rs.val), rs.st, rs.calls⟩
end

/-- `Handler.Unmarshal` (enc/handler.go L43-49): a nil node counts as `Nil`. -/
def Handler.unmarshal {X : Ext} (H : Handler X) (O : Order) (t : Ty) (n : Option (Node X)) (old : Val X t) : Out X (Val X t) :=
  Enc.unmarshal H O t (n.getD .nil) old

/-- `MarshalJSON` (enc/json.go L28-34); `Encode` panics on what it can not represent. -/
def marshalJSON {X : Ext} (O : Order) (t : Ty) (v : Val X t) : Res Str :=
  (marshal O t v).bind fun n => match encode n with
    | .ok s => .ok s
    | .error _ => .panic

/-- `UnmarshalJSON` (enc/json.go L36-42). -/
def unmarshalJSON {X : Ext} (H : Handler X) (O : Order) (t : Ty) (s : Str) (old : Val X t) : Out X (Val X t) :=
  match decode s with
  | none => .mk' old .err
  | some n => H.unmarshal O t n old

/-- `Pairs.Find` (enc/pairs.go L65-72). -/
def findPair {X : Ext} (name : Str) : List ((Str × Str) × Node X) → Option (Node X)
  | [] => none
  | p :: l => if p.1.2 = name then some p.2 else findPair name l

end Verif.Enc

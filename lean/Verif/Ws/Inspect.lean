import Verif.Ws.RpcProps
import Verif.Http.Model
/-!
# Objects registered for RPC over websockets (http/ws/reflect.go, http/ws/handler.go L106-136)

What `reflect` sees of an object: whether it is a struct or a pointer to one; the fields, of which only whether they are exported and whether they are zero matters; the exported
methods of the pointer type. A struct is the list of the values of its fields, which stand for themselves: what is behind pointers in them is not modelled. A method is a function
of the struct and the arguments after the connection. Names are Go identifiers, so valid UTF-8; `json` decoding makes every path of a frame valid UTF-8, too.
-/
set_option autoImplicit false
namespace Verif.Ws.Inspect
open Verif.Strconv Verif.Enc Verif.Ws
open Verif.Http (Bytes utf8)

/-- `toLowerFirst` (reflect.go L166-171): `strings.ToLower` of the first byte, which of a byte that is no character makes U+FFFD. -/
def toLowerFirst : Bytes → Bytes
  | [] => []
  | b :: s => (if 65 ≤ b ∧ b ≤ 90 then [b + 32] else if b < 128 then [b] else [0xEF, 0xBF, 0xBD]) ++ s

/-- A parameter of a method: whether it is a `ws.C`, and its type otherwise. reflect.go L136-148. -/
structure Param where
  conn : Bool
  ty : Ty

/-- An argument of some type. reflect.go L74-81. -/
abbrev Arg (X : Ext) := Σ t : Ty, Val X t

/-- How a method ends: without results (`none`), or with a last one that is nil, an error (as it is marshalled, and its text), or neither, or it panics. reflect.go L82-94. -/
inductive Ret (N : Type) where
  | none
  | nil
  | error (val text : N)
  | other
  | panic

/-- What a method does: the struct after it, what it does on the connection, how it ends. reflect.go L82-83. -/
structure Ran (S N : Type) where
  st : S
  acts : List (Act N)
  ret : Ret N

/-- An exported method of the pointer type, its parameters after the receiver; the last one of a variadic method is a slice. It gets the arguments after the connection, of which those
beyond the fixed parameters are the elements of the slice. reflect.go L131-149. -/
structure Decl (X : Ext) (S : Type) where
  name : Str
  params : List Param
  variadic : Bool := false
  run : S → List (Arg X) → Ran S (Node X)

/-- A field: whether it is exported, and its zero value. reflect.go L119-128. -/
structure Field (V : Type) where
  exported : Bool
  zero : V

/-- A struct type with its methods; the name is empty if it has none. reflect.go L112-116. -/
structure TypeDecl (X : Ext) (V : Type) where
  name : Str
  fields : List (Field V)
  methods : List (Decl X (List V))

/-- What is given to `Register`: a struct, a pointer to one, or nil, a pointer to something else, anything else. reflect.go L104-111. -/
inductive Given (X : Ext) (V : Type) where
  | struct (T : TypeDecl X V) (vals : List V)
  | ptr (T : TypeDecl X V) (vals : List V)
  | nilPtr (T : TypeDecl X V)
  | ptrOther
  | other

/-- A method that can be called (`method`, reflect.go L64-68): the name in frames, the method it is found by, the type of its argument. -/
structure Entry (X : Ext) (S : Type) where
  name : Bytes
  decl : Decl X S
  argument : Option Ty

/-- What is remembered of an object (`builder`, reflect.go L14-20). Of a field the reference is kept, not the value: here its index. -/
structure Builder (X : Ext) (V : Type) where
  name : Bytes
  type : TypeDecl X V
  fields : List Nat
  constructor : Option (Entry X (List V))
  methods : List (Entry X (List V))

section
variable {X : Ext} {V : Type} [DecidableEq V]

/-- The fields that are not zero, from an index on. reflect.go L119-128. -/
def nonZero : Nat → List (Field V) → List V → List Nat
  | i, f :: fs, v :: vs => if v = f.zero then nonZero (i + 1) fs vs else i :: nonZero (i + 1) fs vs
  | _, _, _ => []

/-- A method of the type, if it can be called (reflect.go L131-155): it takes a connection and at most one argument. -/
def entry (m : Decl X (List V)) : Option (Entry X (List V)) :=
  match m.params with
  | [p] => if p.conn then some ⟨toLowerFirst (utf8 m.name), m, none⟩ else none
  | [p, q] => if p.conn then some ⟨toLowerFirst (utf8 m.name), m, some q.ty⟩ else none
  | _ => none

/-- One round of the loop over methods (reflect.go L131-162). -/
def scan (b : Builder X V) (m : Decl X (List V)) : Builder X V :=
  match entry m with
  | none => b
  | some e => if m.name = lit "Init" then { b with constructor := some e } else { b with methods := b.methods ++ [e] }

/-- `inspect` (reflect.go L102-164): `Addr` of a struct in an interface panics (L108), so does `NumField` of nothing and of what is no struct (L119). -/
def inspect : Given X V → Res (Builder X V)
  | .other => .err
  | .struct _ _ => .panic
  | .nilPtr _ => .panic
  | .ptrOther => .panic
  | .ptr T vals => .ok (T.methods.foldl scan ⟨toLowerFirst (utf8 T.name), T, nonZero 0 T.fields vals, none, []⟩)

/-- Setting the fields of a new struct from those of the object as they are now; a field that is not exported can not be set. reflect.go L25-28. -/
def setFields (T : TypeDecl X V) (cur : List V) : List Nat → List V → Option (List V)
  | [], st => some st
  | i :: is, st => match T.fields[i]? with
    | some f => if f.exported then setFields T cur is (st.set i (cur.getD i f.zero)) else none
    | none => none

/-- A new struct, if no field panics (reflect.go L24-28). -/
def Builder.fresh (b : Builder X V) (cur : List V) : Option (List V) := setFields b.type cur b.fields (b.type.fields.map Field.zero)

/-- What a method returned, as its last result is read: `IsNil` panics on what can not be nil, the conversion on what is no error (reflect.go L84-94). -/
def finish {S N : Type} (r : Ran S N) : Outcome S N := ⟨r.st, r.acts, match r.ret with | .none => .ok | .nil => .ok | .error v t => .err v t | .other => .panic | .panic => .panic⟩

/-- `m.Call` (reflect.go L83): the slice is passed as one element of a variadic parameter, which is possible only if that is an `any`. -/
def apply {S : Type} (m : Decl X S) (st : S) (a : Arg X) : Outcome S (Node X) :=
  if m.variadic then match a.1 with | .slice .any => finish (m.run st [a]) | _ => ⟨st, [], .panic⟩
  else finish (m.run st [a])

/-- `method.call` (reflect.go L70-95). `fault` is the error about an argument that can not be read: as it is marshalled, and its text. A lone variadic parameter after the receiver is no
connection, so a method without argument is not variadic. -/
def call {S : Type} (O : Order) (fault : Str → Option (Node X) → Node X × Node X) (e : Entry X S) : Method S (Node X) := fun st data =>
  match e.argument with
  | none => finish (e.decl.run st [])
  | some t =>
    let r := (⟨none⟩ : Handler X).unmarshal O t data (zero X t)
    match r.st with
    | .ok => apply e.decl st ⟨t, r.val⟩
    | .err => ⟨st, [], .err (fault e.decl.name data).1 (fault e.decl.name data).2⟩
    | .panic => ⟨st, [], .panic⟩

/-- The map from names to functions `build` makes, as it is looked up: the last method with that name (reflect.go L37-41, channel.go L29). -/
def Builder.find (b : Builder X V) (name : Bytes) : Option (Entry X (List V)) := b.methods.reverse.find? fun e => e.name = name

/-- A name with the first letter lowered, if that is ASCII. Others can not be named by a frame (`C148_name`). reflect.go L166-171. -/
def lowered : Str → Option Str
  | [] => some []
  | c :: s => if c.toNat < 128 then some (c.toLower :: s) else none

/-- The class of a builder (handler.go L120-134, reflect.go L22-62), of an object with these values when a channel is opened. -/
def Builder.toClass (O : Order) (fault : Str → Option (Node X) → Node X × Node X) (b : Builder X V) (cur : List V) : Class (List V) (Node X) :=
  { fresh := b.fresh cur, init := b.constructor.map (call O fault), methods := b.methods.filterMap fun e => (lowered e.decl.name).map fun k => (k, call O fault e) }

/-- `Register` (handler.go L114-136): a later object replaces one of the same name. -/
def register (O : Order) (fault : Str → Option (Node X) → Node X × Node X) (reg : Registry (List V) (Node X)) (g : Given X V) (cur : List V) : Res (Registry (List V) (Node X)) :=
  match inspect g with
  | .ok b => .ok (match lowered b.type.name with | some k => insertKey k (b.toClass O fault cur) reg | none => reg)
  | .err => .err
  | .panic => .panic

end
end Verif.Ws.Inspect

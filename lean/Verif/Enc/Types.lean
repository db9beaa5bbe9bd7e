import Verif.Enc.Json
/-!
# Go types and values, as far as `enc` looks at them

* A Go type is a finite tree (`Ty`). A recursive Go type is covered by unrolling it as deep as the values (or inputs) at hand, since every Go value
  without cycles, and every input, has finite depth.
* `Val X t` are the values of a type: integers are bit vectors of their width, so that storing truncates as it does in Go.
* A Go map is an association list sorted by the decimal text of its keys (the key itself for strings); the text determines the key.
* `any` holds the native values `enc` itself produces (plus `enc.Time` and `enc.Duration`).
* Not modelled here: types with their own `MarshalNode`, `UnmarshalNode`, `MarshalJSON` or `UnmarshalJSON` other than `time.Time`, `enc.Time`, `enc.Duration`
  and nodes, and `json.RawMessage` (see Enc/Hooks.lean); `ctx.Error`; map keys of floating point; complex numbers.
-/
set_option autoImplicit false
namespace Verif.Enc
open Verif.Strconv

/-- Sizes of integers. `reflect` kinds of enc/handler.go L212-215. -/
inductive Width where
  | w8 | w16 | w32 | w64
deriving DecidableEq

/-- The number of bits. enc/handler.go L212-215. -/
def Width.bits : Width → Nat
  | .w8 => 8 | .w16 => 16 | .w32 => 32 | .w64 => 64

/-- Key types of maps; `other` is a type whose keys are neither written nor read (say `bool`). All key types are in Enc/Keys.lean. enc/map.go L57-75, enc/handler.go L250-269. -/
inductive KTy where
  | str | int (w : Width) | uint (w : Width) | other
deriving DecidableEq

/-- What the code reads of a `reflect.StructField`: its name, whether it is exported, and the entries of its tag (empty if missing): `tag` is the
`json` entry; `enc`, `api` and `url` are read by the `api` package. enc/util.go L97-119, api/tag.go L21-72. -/
structure FieldInfo where
  name : Str
  exported : Bool := true
  tag : Str := []
  enc : Str := []
  api : Str := []
  url : Str := []
deriving DecidableEq

mutual
/-- Go types. `iface` is an interface with methods that no native value implements; `func` and `chan` stand for the kinds `enc` can not represent. enc/handler.go L175-318. -/
inductive Ty where
  | bool | int (w : Width) | uint (w : Width) | float64 | float32 | string
  | any | node | time | encTime | encDur | func | chan | iface
  | ptr (t : Ty) | slice (t : Ty) | array (n : Nat) (t : Ty) | map (k : KTy) (v : Ty) | struct (fs : Fields)
/-- The fields of a struct. enc/handler.go L277-316. -/
inductive Fields where
  | nil
  | cons (f : FieldInfo) (t : Ty) (fs : Fields)
end

/-- The values of an `any`. enc/handler.go L175-318. -/
inductive Any (X : Ext) where
  | nil
  | bool (b : Bool)
  | str (s : Str)
  | f64 (f : X.F)
  | i64 (i : Int)
  | list (l : List (Any X))
  | map (m : List (Str × Any X))
  | time (t : X.T)
  | dur (d : Int)
  | encTime (t : X.T)
  | encDur (d : Int)

mutual
/-- The values of a type. Functions and channels are opaque handles. enc/handler.go L175-318. -/
def Val (X : Ext) : Ty → Type
  | .bool => Bool
  | .int w => BitVec w.bits
  | .uint w => BitVec w.bits
  | .float64 => X.F
  | .float32 => X.F
  | .string => Str
  | .any => Any X
  | .node => Option (Node X)
  | .time => X.T
  | .encTime => X.T
  | .encDur => Int
  | .func => Option Nat
  | .chan => Option Nat
  | .iface => Unit
  | .ptr t => Option (Val X t)
  | .slice t => Option (List (Val X t))
  | .array n t => { l : List (Val X t) // l.length = n }
  | .map _ v => Option (List (Str × Val X v))
  | .struct fs => FVals X fs
/-- The values of the fields. enc/handler.go L277-316. -/
def FVals (X : Ext) : Fields → Type
  | .nil => Unit
  | .cons _ t fs => Val X t × FVals X fs
end

mutual
/-- The zero value (`reflect.Zero`). enc/handler.go L63, L66. -/
def zero (X : Ext) : (t : Ty) → Val X t
  | .bool => (false : Bool)
  | .int w => (0 : BitVec w.bits)
  | .uint w => (0 : BitVec w.bits)
  | .float64 => X.fZero
  | .float32 => X.fZero
  | .string => ([] : Str)
  | .any => Any.nil
  | .node => (none : Option (Node X))
  | .time => X.tZero
  | .encTime => X.tZero
  | .encDur => (0 : Int)
  | .func => (none : Option Nat)
  | .chan => (none : Option Nat)
  | .iface => ()
  | .ptr t => (none : Option (Val X t))
  | .slice t => (none : Option (List (Val X t)))
  | .array n t => (⟨List.replicate n (zero X t), by simp⟩ : { l : List (Val X t) // l.length = n })
  | .map _ v => (none : Option (List (Str × Val X v)))
  | .struct fs => zeroFields X fs
/-- zero values for all fields. enc/handler.go L66. -/
def zeroFields (X : Ext) : (fs : Fields) → FVals X fs
  | .nil => ()
  | .cons _ t fs => (zero X t, zeroFields X fs)
end

/-- `Tag` (enc/util.go L90-95). -/
structure Tag where
  name : Str
  json : Str
  omitEmpty : Bool
  skip : Bool
deriving DecidableEq

/-- `strings.Cut(s, ",")`: before and after the first comma. enc/util.go L106, api/tag.go L21-36. -/
def cutComma : Str → Str × Str
  | [] => ([], [])
  | c :: cs => if c = ',' then ([], cs) else let r := cutComma cs; (c :: r.1, r.2)

/-- `parseTag` (enc/util.go L98-119); `none` is the panic on an unknown option. -/
def parseTag (f : FieldInfo) : Option Tag :=
  if f.tag = lit "-" then some ⟨f.name, [], false, true⟩
  else
    let p := cutComma f.tag
    let json := if p.1 = [] then f.name else p.1
    if p.2 = lit "omitempty" then some ⟨f.name, json, true, false⟩
    else if p.2 = [] then some ⟨f.name, json, false, false⟩
    else none

/-- The outcome of a call: a result, an error, or a panic. enc/handler.go L43-160, L175-318. -/
inductive Res (α : Type) where
  | ok (a : α)
  | err
  | panic
deriving DecidableEq

/-- Going on after success. enc/handler.go L232-235 and the like. -/
def Res.bind {α β : Type} (r : Res α) (f : α → Res β) : Res β :=
  match r with
  | .ok a => f a
  | .err => .err
  | .panic => .panic

/-- One call after the other, stopping at the first failure. enc/handler.go L230-237 and the like. -/
def mapRes {α β : Type} (f : α → Res β) : List α → Res (List β)
  | [] => .ok []
  | a :: l => (f a).bind fun b => (mapRes f l).bind fun bs => .ok (b :: bs)

/-- The order in which a `range` over a map visits its entries; any function that permutes them. enc/handler.go L244, enc/map.go L56. -/
structure Order where
  perm : {α : Type} → List α → List α
  isPerm : ∀ {α : Type} (l : List α), (perm l).Perm l

end Verif.Enc

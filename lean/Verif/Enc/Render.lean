import Verif.Enc.Node
import Verif.Prom.Quote
/-!
# `String()` and `GoString()` of nodes (enc/nil.go L17-23, enc/scalar.go L18-24 and L76-90, enc/numeric.go L35-36, L54-55, L86-87,
enc/list.go L24-38, enc/map.go L33-47, enc/pairs.go L34-48, enc/time.go L22-29 and L80-86)

`fmt` with `%s` or `%#s` calls `String()` (`GoString()` is only for `%#v`). Maps are rendered in iteration order: `ord` reorders the
rendered entries (any function returning a permutation of its argument).
-/
set_option autoImplicit false
namespace Verif.Enc
open Verif.Strconv

/-- Text of a literal. -/
def lit (s : String) : Str := s.toList

/-- `fmt.Sprintf("%q", s)` of valid Unicode. enc/scalar.go L22-24. -/
def quoteStr (isPrint : Char → Bool) (s : Str) : Str := Prom.quote isPrint (s.map Prom.Elt.rune)

/-- `strings.Join(l, ", ")` enc/list.go L37, enc/map.go L38. -/
def joinComma : List Str → Str
  | [] => []
  | [a] => a
  | a :: l => a ++ lit ", " ++ joinComma l

mutual
/-- `String()` enc/list.go L32-38, enc/map.go L33-39, enc/pairs.go L34-40, enc/scalar.go, enc/numeric.go, enc/time.go. -/
def Node.string {X : Ext} (isPrint : Char → Bool) (ord : List Str → List Str) : Node X → Str
  | .nil => lit "null"
  | .bool true => lit "true"
  | .bool false => lit "false"
  | .str s => quoteStr isPrint s
  | .int i => fmtInt i
  | .float f => X.fStr f
  | .digits s => s
  | .list l => lit "[" ++ joinComma (Node.strings isPrint ord l) ++ lit "]"
  | .map m => lit "{" ++ joinComma (ord (Node.entryStrings isPrint ord m)) ++ lit "}"
  | .pairs l => lit "enc.Pairs{" ++ joinComma (Node.pairStrings isPrint ord l) ++ lit "}"
  | .time t => X.tFmt t
  | .dur d => X.dStr d
/-- `String()` of list elements. enc/list.go L32-38. -/
def Node.strings {X : Ext} (isPrint : Char → Bool) (ord : List Str → List Str) : List (Node X) → List Str
  | [] => []
  | n :: l => n.string isPrint ord :: Node.strings isPrint ord l
/-- `%q:%s` of map entries. enc/map.go L33-39. -/
def Node.entryStrings {X : Ext} (isPrint : Char → Bool) (ord : List Str → List Str) : List (Str × Node X) → List Str
  | [] => []
  | (k, n) :: l => (quoteStr isPrint k ++ lit ":" ++ n.string isPrint ord) :: Node.entryStrings isPrint ord l
/-- `%q:%#s` of pairs, by their JSON name. enc/pairs.go L34-40. -/
def Node.pairStrings {X : Ext} (isPrint : Char → Bool) (ord : List Str → List Str) : List ((Str × Str) × Node X) → List Str
  | [] => []
  | ((_, k), n) :: l => (quoteStr isPrint k ++ lit ":" ++ n.string isPrint ord) :: Node.pairStrings isPrint ord l
end

/-- `GoString()` enc/list.go L24-30, enc/map.go L41-47, enc/pairs.go L42-48, enc/scalar.go, enc/numeric.go, enc/time.go. -/
def Node.goString {X : Ext} (isPrint : Char → Bool) (ord : List Str → List Str) : Node X → Str
  | .nil => lit "enc.Nil{}"
  | .bool true => lit "enc.Bool{true}"
  | .bool false => lit "enc.Bool{false}"
  | .str s => lit "enc.String{" ++ quoteStr isPrint s ++ lit "}"
  | .int i => lit "enc.Integer{" ++ fmtInt i ++ lit "}"
  | .float f => lit "enc.Float{" ++ X.fStr f ++ lit "}"
  | .digits s => lit "enc.Digits{" ++ quoteStr isPrint s ++ lit "}"
  | .list l => lit "enc.List{" ++ joinComma (Node.strings isPrint ord l) ++ lit "}"
  | .map m => lit "enc.Map{" ++ joinComma (ord (Node.entryStrings isPrint ord m)) ++ lit "}"
  | .pairs l => lit "enc.Pairs{" ++ joinComma (l.map (fun p => quoteStr isPrint p.1.1 ++ lit ":" ++ p.2.string isPrint ord)) ++ lit "}"
  | .time t => lit "enc.Time{" ++ X.tStr t ++ lit "}"
  | .dur d => lit "enc.Duration{" ++ X.dStr d ++ lit "}"

end Verif.Enc

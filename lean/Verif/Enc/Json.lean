import Verif.Enc.Render
/-!
# The JSON codec (enc/json.go, the `MarshalJSON` methods, `fromNative` in enc/enc.go L66-118, and the part of `encoding/json` they use)

`encoding/json` is a standard library; its encoder and decoder are modelled at the level of characters: string escapes (HTML escaping is
on), sorted map keys, white space, literals, the number grammar, surrogate pairs, last duplicate key wins, nothing after the first value
is looked at, and the nesting limit of 10000.

Simplifications: a nil `enc.List` (encoded as `null`) and a nil node inside a list are not modelled here. `enc.Digits` holding JSON that is not
a number are in Enc/Native.lean, `Indent` in Enc/SpaceProps.lean, strings that are not UTF-8 in Enc/BytesJson.lean.
-/
set_option autoImplicit false
namespace Verif.Enc
open Verif.Strconv

/-- `maxNestingDepth` of `encoding/json`'s scanner. Called through enc/json.go L58, L81. -/
def maxDepth : Nat := 10000

/-! ### encoding -/

/-- One character of a JSON string (`encoding/json.appendString` with `escapeHTML`, as of Go 1.20, the version in go.mod; later versions write
`\b` and `\f` for two of the control characters, which reads back the same). Called through enc/json.go L58. -/
def escJson (c : Char) : Str :=
  if c = '"' then ['\\', '"']
  else if c = '\\' then ['\\', '\\']
  else if c.toNat = 10 then ['\\', 'n']
  else if c.toNat = 13 then ['\\', 'r']
  else if c.toNat = 9 then ['\\', 't']
  else if c.toNat < 32 ∨ c = '<' ∨ c = '>' ∨ c = '&' ∨ c.toNat = 0x2028 ∨ c.toNat = 0x2029 then '\\' :: 'u' :: Prom.hexN 4 c.toNat
  else [c]

/-- A JSON string. Called through enc/json.go L58, L66-72. -/
def jsonStr (s : Str) : Str := '"' :: (s.flatMap escJson ++ ['"'])

mutual
/-- The text `json.Marshal` produces for a node: `Nil` (enc/nil.go L15), `Bool` and `String` (by kind), `Integer`, `Float` and `Digits`
(enc/numeric.go L38, L57, L120), `List` (by kind), `Map` (enc/map.go L26-31), `Pairs` (enc/pairs.go L50-63; the white space it writes is
removed by `json.Marshal`), `Time` (enc/time.go L31-33), `Duration` (enc/time.go L97-102). -/
def Node.text {X : Ext} : Node X → Str
  | .nil => lit "null"
  | .bool true => lit "true"
  | .bool false => lit "false"
  | .str s => jsonStr s
  | .int i => fmtInt i
  | .float f => (X.fJson f).getD []
  | .digits s => s
  | .list l => '[' :: (Node.listText l ++ [']'])
  | .map m => '{' :: (Node.mapText m ++ ['}'])
  | .pairs l => '{' :: (Node.pairsText l ++ ['}'])
  | .time t => jsonStr (X.tFmt t)
  | .dur d => if d = 0 then jsonStr [] else jsonStr (X.dStr d)
/-- elements, separated by commas. `enc.List` by kind: enc/list.go L11, enc/json.go L58. -/
def Node.listText {X : Ext} : List (Node X) → Str
  | [] => []
  | [n] => n.text
  | n :: l => n.text ++ ',' :: Node.listText l
/-- members, separated by commas; keys are sorted because the list is. enc/map.go L26-31. -/
def Node.mapText {X : Ext} : List (Str × Node X) → Str
  | [] => []
  | [(k, n)] => jsonStr k ++ ':' :: n.text
  | (k, n) :: l => jsonStr k ++ ':' :: (n.text ++ ',' :: Node.mapText l)
/-- members, in order. enc/pairs.go L50-63. -/
def Node.pairsText {X : Ext} : List ((Str × Str) × Node X) → Str
  | [] => []
  | [((_, k), n)] => jsonStr k ++ ':' :: n.text
  | ((_, k), n) :: l => jsonStr k ++ ':' :: (n.text ++ ',' :: Node.pairsText l)
end

/-! ### numbers -/

/-- The leading digits, and the rest. `encoding/json`, for enc/json.go L79-81. -/
def spanDigits : Str → Str × Str
  | [] => ([], [])
  | c :: cs => if isDigit c then let r := spanDigits cs; (c :: r.1, r.2) else ([], c :: cs)

/-- The integer part: `0`, or digits not starting with `0`. `encoding/json`, for enc/json.go L79-81. -/
def numInt : Str → Option (Str × Str)
  | '0' :: r => some (['0'], r)
  | c :: cs => if isDigit c then some (spanDigits (c :: cs)) else none
  | [] => none

/-- The fraction, if any. `encoding/json`, for enc/json.go L79-81. -/
def numFrac : Str → Option (Str × Str)
  | '.' :: r => let p := spanDigits r; if p.1 = [] then none else some ('.' :: p.1, p.2)
  | r => some ([], r)

/-- The exponent, if any. `encoding/json`, for enc/json.go L79-81. -/
def numExp : Str → Option (Str × Str)
  | c :: r =>
    if c = 'e' ∨ c = 'E' then
      match r with
      | s :: r' => if s = '+' ∨ s = '-' then let p := spanDigits r'; if p.1 = [] then none else some (c :: s :: p.1, p.2)
        else let p := spanDigits (s :: r'); if p.1 = [] then none else some (c :: p.1, p.2)
      | [] => none
    else some ([], c :: r)
  | [] => some ([], [])

/-- A number after its sign. `encoding/json`, for enc/json.go L79-81. -/
def numBody (sign s1 : Str) : Option (Str × Str) :=
  match numInt s1 with
  | none => none
  | some (i, s2) => match numFrac s2 with
    | none => none
    | some (f, s3) => match numExp s3 with
      | none => none
      | some (e, s4) => some (sign ++ i ++ f ++ e, s4)

/-- The longest number at the start of the text, and the rest. `encoding/json` with `UseNumber`, for enc/json.go L79-81. -/
def parseNumber : Str → Option (Str × Str)
  | '-' :: r => numBody ['-'] r
  | s => numBody [] s

/-- The text is a JSON number. What `encoding/json` checks of enc/numeric.go L120. -/
def isNumber (s : Str) : Bool := parseNumber s == some (s, [])

/-! ### when encoding succeeds -/

mutual
/-- Nesting of lists and objects. `encoding/json`, for enc/json.go L79-81. -/
def Node.depth {X : Ext} : Node X → Nat
  | .list l => Node.listDepth l + 1
  | .map m => Node.mapDepth m + 1
  | .pairs l => Node.pairsDepth l + 1
  | _ => 0
/-- The deepest of a list: enc/list.go L11. -/
def Node.listDepth {X : Ext} : List (Node X) → Nat
  | [] => 0
  | n :: l => max n.depth (Node.listDepth l)
/-- The deepest of the members: enc/map.go L14. -/
def Node.mapDepth {X : Ext} : List (Str × Node X) → Nat
  | [] => 0
  | (_, n) :: l => max n.depth (Node.mapDepth l)
/-- The deepest of the members: enc/pairs.go L14. -/
def Node.pairsDepth {X : Ext} : List ((Str × Str) × Node X) → Nat
  | [] => 0
  | (_, n) :: l => max n.depth (Node.pairsDepth l)
end

mutual
/-- `json.Marshal` succeeds: no NaN or infinity, digits are a number, and what a `MarshalJSON` method returns (`Map` and `Pairs`) is within
the nesting limit, because it is scanned again. -/
def Node.encodable {X : Ext} : Node X → Bool
  | .float f => (X.fJson f).isSome
  | .digits s => isNumber s
  | .list l => Node.listEncodable l
  | .map m => Node.mapEncodable m && decide (Node.mapDepth m + 1 ≤ maxDepth)
  | .pairs l => Node.pairsEncodable l && decide (Node.pairsDepth l + 1 ≤ maxDepth)
  | _ => true
/-- All of a list: enc/list.go L11, enc/json.go L58. -/
def Node.listEncodable {X : Ext} : List (Node X) → Bool
  | [] => true
  | n :: l => n.encodable && Node.listEncodable l
/-- All the members: enc/map.go L26-31. -/
def Node.mapEncodable {X : Ext} : List (Str × Node X) → Bool
  | [] => true
  | (_, n) :: l => n.encodable && Node.mapEncodable l
/-- All the members: enc/pairs.go L50-63. -/
def Node.pairsEncodable {X : Ext} : List ((Str × Str) × Node X) → Bool
  | [] => true
  | (_, n) :: l => n.encodable && Node.pairsEncodable l
end

mutual
/-- Of a node that is not `encodable`: whether `json.Marshal` panics instead of returning an error. `Pairs.MarshalJSON` panics on a member (`mustJSON`, enc/pairs.go L58-59, enc/json.go
L66-72), which `json.Marshal` does not turn into an error; the first that fails decides. -/
def Node.jsonPanics {X : Ext} : Node X → Bool
  | .list l => Node.listPanics l
  | .map m => Node.mapPanics m
  | .pairs l => !Node.pairsEncodable l
  | _ => false
/-- The first of the list that fails: enc/list.go L11, enc/json.go L58. -/
def Node.listPanics {X : Ext} : List (Node X) → Bool
  | [] => false
  | n :: l => if n.encodable then Node.listPanics l else n.jsonPanics
/-- The first of the members that fails, by key: enc/map.go L26-31. -/
def Node.mapPanics {X : Ext} : List (Str × Node X) → Bool
  | [] => false
  | (_, n) :: l => if n.encodable then Node.mapPanics l else n.jsonPanics
end

/-- `JSON{}.Encode` (enc/json.go L50-64): panics on errors. -/
def encode {X : Ext} (n : Node X) : Go Str :=
  if n.encodable then .ok n.text else .error .explicit

/-! ### decoding -/

/-- White space. `encoding/json`, for enc/json.go L79-81. -/
def isWs (c : Char) : Bool := c = ' ' ∨ c = '\t' ∨ c = '\r' ∨ c = '\n'

/-- Skipping white space. `encoding/json`, for enc/json.go L79-81. -/
def skipWs : Str → Str
  | [] => []
  | c :: cs => if isWs c then skipWs cs else c :: cs

/-- The value of a hexadecimal digit, in either case. `encoding/json`, for enc/json.go L79-81. -/
def hexVal (c : Char) : Option Nat :=
  if '0' ≤ c ∧ c ≤ '9' then some (c.toNat - 48)
  else if 'a' ≤ c ∧ c ≤ 'f' then some (c.toNat - 87)
  else if 'A' ≤ c ∧ c ≤ 'F' then some (c.toNat - 55)
  else none

/-- Four hexadecimal digits. `encoding/json`, for enc/json.go L79-81. -/
def hex4 (a b c d : Char) : Option Nat :=
  match hexVal a, hexVal b, hexVal c, hexVal d with
  | some a, some b, some c, some d => some (((a * 16 + b) * 16 + c) * 16 + d)
  | _, _, _, _ => none

/-- The escapes of one character. `encoding/json`, for enc/json.go L79-81. -/
def unescape (c : Char) : Option Char :=
  if c = '"' then some '"'
  else if c = '\\' then some '\\'
  else if c = '/' then some '/'
  else if c = 'b' then some (Char.ofNat 8)
  else if c = 'f' then some (Char.ofNat 12)
  else if c = 'n' then some (Char.ofNat 10)
  else if c = 'r' then some (Char.ofNat 13)
  else if c = 't' then some (Char.ofNat 9)
  else none

/-- The replacement character. `encoding/json`, for enc/json.go L79-81. -/
def replacement : Char := Char.ofNat 0xFFFD

/-- The character of a code point given by `\u`. `encoding/json`, for enc/json.go L79-81. -/
def ofUnit (u : Nat) : Char := if 0xD800 ≤ u ∧ u < 0xE000 then replacement else Char.ofNat u

/-- Two surrogates form one character. `encoding/json`, for enc/json.go L79-81. -/
def ofPair (u v : Nat) : Char := Char.ofNat (0x10000 + (u - 0xD800) * 0x400 + (v - 0xDC00))

/-- Consing onto a parsed string. `encoding/json`, for enc/json.go L79-81. -/
def consChar (c : Char) : Option (Str × Str) → Option (Str × Str)
  | some (s, r) => some (c :: s, r)
  | none => none

/-- The code unit of a `\u` escape at the start of the text, if there is one. `encoding/json`, for enc/json.go L79-81. -/
def peekUnit : Str → Option Nat
  | '\\' :: 'u' :: a :: b :: c :: d :: _ => hex4 a b c d
  | _ => none

/-- The rest of a string after its opening quote: its characters and what follows the closing quote. `encoding/json`, for enc/json.go L79-81. -/
def parseStr : Str → Option (Str × Str)
  | [] => none
  | '"' :: r => some ([], r)
  | '\\' :: 'u' :: a :: b :: c :: d :: r =>
    match hex4 a b c d with
    | none => none
    | some u =>
      match peekUnit r with
      | some v =>
        if 0xD800 ≤ u ∧ u < 0xDC00 ∧ 0xDC00 ≤ v ∧ v < 0xE000 then consChar (ofPair u v) (parseStr (r.drop 6))
        else consChar (ofUnit u) (parseStr r)
      | none => consChar (ofUnit u) (parseStr r)
  | '\\' :: e :: r =>
    match unescape e with
    | none => none
    | some c => consChar c (parseStr r)
  | c :: r => if c.toNat < 32 ∨ c = '\\' then none else consChar c (parseStr r)
termination_by s => s.length
decreasing_by all_goals simp <;> omega

mutual
/-- One value: `fuel` bounds the recursion (the length of the text suffices), `d` is how many more levels may be opened. Numbers become
`Digits` (`UseNumber`), strings `String`, arrays `List`, objects `Map` (`fromNative`). enc/json.go L79-85, enc/enc.go L62-118. -/
def parseValue {X : Ext} : Nat → Nat → Str → Option (Node X × Str)
  | 0, _, _ => none
  | fuel + 1, d, s =>
    match skipWs s with
    | [] => none
    | 'n' :: 'u' :: 'l' :: 'l' :: r => some (.nil, r)
    | 't' :: 'r' :: 'u' :: 'e' :: r => some (.bool true, r)
    | 'f' :: 'a' :: 'l' :: 's' :: 'e' :: r => some (.bool false, r)
    | '"' :: r => match parseStr r with
      | some (s, r) => some (.str s, r)
      | none => none
    | '[' :: r =>
      match d with
      | 0 => none
      | d + 1 => match skipWs r with
        | ']' :: r' => some (.list [], r')
        | _ => match parseElems fuel d r with
          | some (l, r') => some (.list l, r')
          | none => none
    | '{' :: r =>
      match d with
      | 0 => none
      | d + 1 => match skipWs r with
        | '}' :: r' => some (.map [], r')
        | _ => match parseMembers fuel d r with
          | some (m, r') => some (.map (ofEntries m), r')
          | none => none
    | c :: r => match parseNumber (c :: r) with
      | some (n, r) => some (.digits n, r)
      | none => none
/-- The elements of an array up to and including the closing bracket. enc/json.go L79-85, enc/enc.go L73-78. -/
def parseElems {X : Ext} : Nat → Nat → Str → Option (List (Node X) × Str)
  | 0, _, _ => none
  | fuel + 1, d, s =>
    match parseValue fuel d s with
    | none => none
    | some (n, r) => match skipWs r with
      | ',' :: r => match parseElems fuel d r with
        | some (l, r) => some (n :: l, r)
        | none => none
      | ']' :: r => some ([n], r)
      | _ => none
/-- The members of an object up to and including the closing brace. enc/json.go L79-85, enc/enc.go L66-72. -/
def parseMembers {X : Ext} : Nat → Nat → Str → Option (List (Str × Node X) × Str)
  | 0, _, _ => none
  | fuel + 1, d, s =>
    match skipWs s with
    | '"' :: r => match parseStr r with
      | none => none
      | some (k, r) => match skipWs r with
        | ':' :: r => match parseValue fuel d r with
          | none => none
          | some (n, r) => match skipWs r with
            | ',' :: r => match parseMembers fuel d r with
              | some (l, r) => some ((k, n) :: l, r)
              | none => none
            | '}' :: r => some ([(k, n)], r)
            | _ => none
        | _ => none
    | _ => none
end

/-- Enough fuel for a text. For `parseValue`; enc/json.go L79-81. -/
def fuelFor (s : Str) : Nat := 2 * s.length + 2

/-- `JSON{}.Decode` (enc/json.go L74-86): the empty text gives a nil node without error (`some none`); `none` is an error. -/
def decode {X : Ext} (s : Str) : Option (Option (Node X)) :=
  if s = [] then some none
  else match parseValue (fuelFor s) maxDepth s with
    | some (n, _) => some (some n)
    | none => none

end Verif.Enc

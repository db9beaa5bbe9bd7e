import Verif.Enc.Render
/-!
# Configuration loading (config/config.go)

`reflect` is modelled by a small type language: the kinds `unmarshalText` distinguishes, with the facts that make a `Set` panic (a
named bool or int type, a map whose key type is not exactly `string`, an unexported field). Types with a method of their own are
described by an identifier and the kind underneath; what the method does is the parameter `custom`.
-/
set_option autoImplicit false
namespace Verif.Config
open Verif.Strconv Verif.Enc

/-- Field types. config/config.go L88-142. -/
inductive CTy where
  | bool (named : Bool)
  | int (named : Bool)
  /-- strings, named or not: the code converts -/
  | str
  | slice (e : CTy)
  /-- maps, with a plain `string` key or another type of key -/
  | map (plainKey : Bool) (e : CTy)
  /-- implements `config.UnmarshalText` -/
  | ctxText (id : Nat) (kind : CTy)
  /-- implements `encoding.TextUnmarshaler` or `json.Unmarshaler` -/
  | stdText (id : Nat) (kind : CTy)
  /-- any other kind -/
  | other

/-- Values of these types. A slice and a map may be nil. config/config.go L88-142. -/
inductive CVal where
  | bool (b : Bool)
  | int (i : Int)
  | str (s : Str)
  | slice (l : Option (List CVal))
  | map (m : Option (List (Str × CVal)))
  | opaque (n : Nat)

/-- The zero value of a type. config/config.go L115, L130. -/
def zero : CTy → CVal
  | .bool _ => .bool false
  | .int _ => .int 0
  | .str => .str []
  | .slice _ => .slice none
  | .map _ _ => .map none
  | .ctxText _ k => zero k
  | .stdText _ k => zero k
  | .other => .opaque 0

/-- Why loading stopped. config/config.go L21-66. -/
inductive Stop where
  /-- an error returned to the caller -/
  | err
  /-- a panic inside `reflect` -/
  | panic
  deriving DecidableEq

/-- `strings.Split(s, string(sep))`: never empty. Called in config/config.go L33, L111, L127. -/
def splitOn (sep : Char) : Str → List Str
  | [] => [[]]
  | c :: cs => if c = sep then [] :: splitOn sep cs
    else match splitOn sep cs with
      | [] => [[c]]
      | p :: ps => (c :: p) :: ps

/-- `strings.Cut(s, string(sep))`, also `strings.SplitN(s, sep, 2)` with a missing second part read as empty. Called in config/config.go L39 and L129. -/
def cut (sep : Char) : Str → Str × Str
  | [] => ([], [])
  | c :: cs => if c = sep then ([], cs) else let r := cut sep cs; (c :: r.1, r.2)

/-- `strings.ToLower`, on the letters that matter: no character outside ASCII lowers to a letter of the words below. Called in config/config.go L91. -/
def lower (c : Char) : Char := if 'A' ≤ c ∧ c ≤ 'Z' then Char.ofNat (c.toNat + 32) else c

/-- The boolean words (config/config.go L91-98). -/
def parseBool (val : Str) : Option Bool :=
  let w := val.map lower
  if w = lit "true" ∨ w = lit "1" ∨ w = lit "yes" ∨ w = lit "y" then some true
  else if w = lit "" ∨ w = lit "false" ∨ w = lit "0" ∨ w = lit "no" ∨ w = lit "n" then some false
  else none

/-- The elements of a slice or map (config/config.go L113-120, L128-136): each part is parsed, the first failure is returned. -/
def parseParts (parse : Str → Except Stop CVal) : List Str → Except Stop (List CVal)
  | [] => .ok []
  | el :: els => match parse el with
    | .error e => .error e
    | .ok v => match parseParts parse els with
      | .error e => .error e
      | .ok vs => .ok (v :: vs)

/-- The existing elements of a slice value. config/config.go L112. -/
def CVal.elems : CVal → List CVal
  | .slice (some l) => l
  | _ => []

/-- `unmarshalText` (config/config.go L72-143): the new value of the destination. -/
def unmarshalText (custom : Nat → CVal → Str → Except Stop CVal) : CTy → CVal → Str → Except Stop CVal
  | .ctxText id _, old, val => custom id old val
  | .stdText id kind, old, val => if val ≠ [] then custom id old val else unmarshalText custom kind old val
  | .bool named, _, val => match parseBool val with
    | some b => if named then .error .panic else .ok (.bool b)
    | none => .error .err
  | .int named, _, val => match parseInt val with
    | some i => if named then .error .panic else .ok (.int i)
    | none => .error .err
  | .str, _, val => .ok (.str val)
  | .slice e, old, val =>
    if val ≠ [] then
      match parseParts (fun el => unmarshalText custom e (zero e) el) (splitOn ',' val) with
      | .ok vs => .ok (.slice (some (old.elems ++ vs)))
      | .error x => .error x
    else .ok old
  | .map plainKey e, old, val =>
    if val ≠ [] then
      match parseParts (fun el => if plainKey then unmarshalText custom e (zero e) (cut '=' el).2
          else match unmarshalText custom e (zero e) (cut '=' el).2 with
            | .ok _ => .error .panic
            | .error x => .error x) (splitOn ',' val) with
      | .ok vs => .ok (.map (some (ofEntries (((splitOn ',' val).map (fun el => (cut '=' el).1)).zip vs))))
      | .error x => .error x
    else .ok old
  | .other, _, _ => .error .err

/-- A struct field: its `config` tag, its type and whether it is exported. config/config.go L27-35. -/
structure Field where
  tag : Str
  ty : CTy
  exported : Bool

/-- The options after the key (config/config.go L36-50): the default value, if any; `none` for an unsupported option. -/
def parseOpts : List Str → Option Str → Option (Option Str)
  | [], d => some d
  | o :: os, _ => if (cut '=' o).1 = lit "default" then parseOpts os (some (cut '=' o).2) else none

/-- One turn of the loop of `From` (config/config.go L27-64): the new value of the field. -/
def loadField (custom : Nat → CVal → Str → Except Stop CVal) (f : Str → Str) (fd : Field) (old : CVal) : Except Stop CVal :=
  if fd.tag = [] then .ok old
  else
    let parts := splitOn ',' fd.tag
    let key := parts.headD []
    match parseOpts parts.tail none with
    | none => .error .err
    | some def? =>
      let val := f key
      match (if val = [] then def? else some val) with
      | none => .error .err
      | some val => if fd.exported then unmarshalText custom fd.ty old val else .error .panic

/-- `From` on a struct (config/config.go L21-66): the fields after the call, and how it stopped, if it did. The fields before the
failing one are set already. -/
def load (custom : Nat → CVal → Str → Except Stop CVal) (f : Str → Str) : List Field → List CVal → List CVal × Option Stop
  | fd :: fds, v :: vs => match loadField custom f fd v with
    | .error e => (v :: vs, some e)
    | .ok v' => let r := load custom f fds vs; (v' :: r.1, r.2)
  | _, vs => (vs, none)

end Verif.Config

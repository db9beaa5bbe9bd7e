import Verif.Ctx.Log
/-!
# /repo/ctx/log/log.go: the default logger (L46-73, L94-106) and what reaches its output

`slog` is modelled as far as this package uses it: a record below the minimum level is dropped; otherwise the JSON handler passes every attribute that is not a group through
`ReplaceAttr` (the built-in ones at top level, those of the group "tags" as well), and writes what comes back. A group without attributes is not written. The time of a record is
left out. Levels are integers (`slog.LevelDebug` is -4).
-/
set_option autoImplicit false
namespace Verif.Ctx.Slog
open Verif.Ctx

/-- The value of an attribute: a `slog.Level`, a string, or a tag's JSON text. log.go L68-70, L97-104. -/
inductive LVal where
  | level (l : Int)
  | text (s : String)
  | json (s : String)
deriving DecidableEq

/-- `slog.Attr`. log.go L96. -/
structure Attr where
  key : String
  val : LVal
deriving DecidableEq

/-- `ReplaceAttr` (log.go L96-105): the type assertion of L99 panics if the value is no level; `levelText` is `strings.ToLower(level.String())`. -/
def replaceAttr (levelText : Int → String) (a : Attr) : Go Attr :=
  if a.key = "level" then
    match a.val with
    | .level l => .ok ⟨"level", .text (levelText l)⟩
    | _ => .error .typeAssert
  else if a.key = "msg" then .ok { a with key := "message" }
  else .ok a

/-- Attributes one after the other (log.go L96). -/
def replaceAll (levelText : Int → String) : List Attr → Go (List Attr)
  | [] => .ok []
  | a :: l => match replaceAttr levelText a with
    | .error e => .error e
    | .ok b => match replaceAll levelText l with
      | .error e => .error e
      | .ok bs => .ok (b :: bs)

/-- A line of the log: the attributes at top level, and those of the group "tags" (log.go L68-70). -/
structure Line where
  top : List Attr
  tags : List Attr
deriving DecidableEq

/-- `AsList` (log.go L25-32) followed by `slog.Group` (L68, L70): the attributes of the group, for one order of the tags. -/
def tagAttrs (l : List (String × String)) : List Attr := l.map fun p => ⟨p.1, .json p.2⟩

/-- The attributes of a record at top level: built-in ones, and `src` unless it is empty (log.go L67-71). -/
def topAttrs (level : Int) (msg src : String) : List Attr :=
  [⟨"level", .level level⟩, ⟨"msg", .text msg⟩] ++ if src ≠ "" then [⟨"src", .text src⟩] else []

/-- `l.LogAttrs` with the default handler (log.go L68, L70, L94-106): nothing if the level is below the minimum. -/
def emit (levelText : Int → String) (min level : Int) (msg src : String) (tags : List (String × String)) : Go (Option Line) :=
  if level < min then .ok none
  else
    match replaceAll levelText (topAttrs level msg src) with
    | .error e => .error e
    | .ok top => match replaceAll levelText (tagAttrs tags) with
      | .error e => .error e
      | .ok ts => .ok (some ⟨top, ts⟩)

/-- The log function made by `wrapSlogLogger` (log.go L63-73) around the default handler; `asList` is the order in which the map of tags is visited. It returns what is
written, and the caller's arguments afterwards. -/
def logCall {P S : Type} (ops : FmtOps P S) (levelText : Int → String) (asList : Tags → List (String × String)) (min : Int) (c : Option Ctx) (level : Int) (src f : String)
    (args : List (Arg P S)) : Go (Option Line) × List (Arg P S) :=
  let r := formatMsg ops (extractTags c) f args
  (emit levelText min level r.1 src (asList r.2.1), r.2.2)

/-! ### the level of the default logger -/

/-- What a program does with the default logger: set its level (log.go L53-55), make another default logger (L94-106), log (L108-138). -/
inductive Use where
  | setLevel (l : Int)
  | newLogger
  | log (level : Int)
deriving DecidableEq

/-- The minimum level (`DefaultLoggerLevel`), and the levels of the records written (latest first). log.go L49, L53-55, L95. -/
def use (s : Int × List Int) : Use → Int × List Int
  | .setLevel l => (l, s.2)
  | .newLogger => (-4, s.2)
  | .log level => (s.1, if level < s.1 then s.2 else level :: s.2)

/-- A program; at first the default logger is made (log.go L46, L95). -/
def uses (l : List Use) : Int × List Int := l.foldl use (-4, [])

end Verif.Ctx.Slog

import Verif.Enc.Render
/-!
# /repo/utils/ast/call_args.go: finding the source of a call's arguments

The parsed file is a tree that keeps what the visitor looks at. Source positions are replaced by the text they delimit: `Src(a, b)` is a
parameter of the node. Reading and parsing the file (`os.ReadFile`, `parser.ParseFile`) and the stack frame are parameters too.
-/
set_option autoImplicit false
namespace Verif.Ast
open Verif.Strconv Verif.Enc

/-- The function expression of a call: call_args.go L119-185. -/
inductive Fn where
  /-- `*ast.Ident` -/
  | ident (name : Str)
  /-- `*ast.SelectorExpr`; `x` is the name of the left side if it is an identifier -/
  | sel (x : Option Str) (name : Str)
  /-- `*ast.ArrayType`, `*ast.ParenExpr` and everything else (only logged) -/
  | other

/-- What is read of an argument expression. utils/ast/call_args.go L130-145, L159-172. -/
structure ArgInfo where
  /-- the text of the expression -/
  src : Str
  /-- `none`: not a function literal; `some none`: a literal with an empty body; `some (some s)`: the text of its statements -/
  lit : Option (Option Str)

/-- A node of the syntax tree with the children `ast.Walk` visits, in that order. utils/ast/call_args.go L98-186. -/
inductive Node where
  /-- `*ast.BlockStmt` -/
  | block (kids : List Node)
  /-- `*ast.AssignStmt`: the identifiers on the left (`none` for another expression), and the text from the first right-hand
  expression to the end -/
  | assign (lhs : List (Option Str)) (src : Str) (kids : List Node)
  /-- `*ast.CallExpr` at a line -/
  | call (line : Nat) (fn : Fn) (args : List ArgInfo) (kids : List Node)
  /-- any other node -/
  | other (kids : List Node)

/-- L21-24 `Arg`; an empty `assignment` means none. -/
structure Arg where
  src : Str
  assignment : Str
  deriving DecidableEq

/-- L15-19 `Call`, without `All`. -/
structure Call where
  name : Str
  args : List Arg
  deriving DecidableEq

/-- A Go `map[string]string`: only the last write to a key is seen. utils/ast/call_args.go L79-86. -/
abbrev Scope := List (Str × Str)

/-- Reading a map that may be nil; a missing key gives "". utils/ast/call_args.go L140-145, L168-172. -/
def readScope (s : Option Scope) (k : Str) : Str :=
  match s with
  | none => []
  | some s => ((s.find? (fun p => p.1 = k)).map (·.2)).getD []

/-- `this.scope[lh.Name] = src` for every identifier on the left (L105-111); a nil map panics. -/
def setScope (s : Option Scope) (lhs : List (Option Str)) (src : Str) : Go (Option Scope) :=
  lhs.foldl (fun acc l =>
    match acc, l with
    | .error p, _ => .error p
    | .ok s, none => .ok s
    | .ok none, some _ => .error .nilMap
    | .ok (some s), some k => .ok (some ((k, src) :: s))) (.ok s)

/-- The arguments of a call (L130-145, L159-172): a function literal is replaced by the text of its body, and an empty body panics. -/
def readArgs (s : Option Scope) : List ArgInfo → Go (List Arg)
  | [] => .ok []
  | a :: as =>
    match a.lit with
    | some none => .error .index
    | some (some body) => (readArgs s as).map (⟨body, readScope s body⟩ :: ·)
    | none => (readArgs s as).map (⟨a.src, readScope s a.src⟩ :: ·)

/-- The name `found` reports, if the function expression matches (L121-127, L149-158). -/
def matchFn (fname : Str) : Fn → Option Str
  | .ident n => if n = fname then some n else none
  | .sel (some x) n => if n = fname then some (x ++ '.' :: n) else none
  | .sel none n => if n = fname then some n else none
  | .other => none

/-- L113-182: what visiting a call expression itself does: `some` if `found` was called. -/
def visitCall (fname : Str) (target : Nat) (s : Option Scope) (line : Nat) (fn : Fn) (args : List ArgInfo) : Go (Option Call) :=
  if line = target then
    match matchFn fname fn with
    | some name => (readArgs s args).map (fun as => some ⟨name, as⟩)
    | none => .ok none
  else .ok none

/-- The walk's state: the map the current visitor refers to and the last call reported. utils/ast/call_args.go L79-86. -/
abbrev WState := Option Scope × Option Call

mutual
/-- `ast.Walk(visitor, node)`, L95-186. The visitor is a value holding a map: a block hands a copy to its children, every other node its
own map, so assignments are seen by later siblings and their descendants until the block ends. -/
def walk (fname : Str) (target : Nat) : Node → WState → Go WState
  | .block kids, (s, f) =>
    match walkAll fname target kids (some (s.getD []), f) with
    | .ok (_, f') => .ok (s, f')
    | .error p => .error p
  | .assign lhs src kids, (s, f) =>
    match setScope s lhs src with
    | .ok s' => walkAll fname target kids (s', f)
    | .error p => .error p
  | .call line fn args kids, (s, f) =>
    match visitCall fname target s line fn args with
    | .ok (some c) => walkAll fname target kids (s, some c)
    | .ok none => walkAll fname target kids (s, f)
    | .error p => .error p
  | .other kids, (s, f) => walkAll fname target kids (s, f)

/-- `ast.Walk` over children in order; utils/ast/call_args.go L98-186. -/
def walkAll (fname : Str) (target : Nat) : List Node → WState → Go WState
  | [], st => .ok st
  | n :: ns, st =>
    match walk fname target n st with
    | .ok st' => walkAll fname target ns st'
    | .error p => .error p
end

/-- What reading and parsing the caller's file gives: `none` when either fails (L52-60). -/
abbrev Source := Option (List Node)

/-- L50-77 `Caller`: the call, or `none` for an error. The visitor starts with a nil map. -/
def caller (src : Source) (fname : Str) (line : Nat) : Go (Option Call) :=
  match src with
  | none => .ok none
  | some file =>
    match walkAll fname line file (none, none) with
    | .ok (_, f) => .ok f
    | .error p => .error p

/-- `strings.Split(s, "\n")[0]`. utils/ast/call_args.go L26-32. -/
def firstLine (s : Str) : Str := s.takeWhile (· ≠ '\n')

/-- L26-32 `Arg.Short`. -/
def Arg.short (a : Arg) : Str := firstLine (if a.assignment = [] then a.src else a.assignment)

/-- L39-46 `Assignment`; `fl` is the file and line. -/
def assignment (src : Source) (fname : Str) (line : Nat) (fl : Str) (arg : Nat) : Go Str :=
  match caller src fname line with
  | .error p => .error p
  | .ok none => .ok fl
  | .ok (some c) =>
    match c.args[arg]? with
    | some a => .ok a.short
    | none => .error .index

/-- /repo/test/util.go L44-48 `res.argument`: the error of `Caller` is ignored. -/
def argument (src : Source) (fname : Str) (line : Nat) (arg : Nat) (msg : Str) : Go Str :=
  match caller src fname line with
  | .error p => .error p
  | .ok none => .error .nilDeref
  | .ok (some c) =>
    match c.args[arg]? with
    | some a => .ok (a.src ++ lit ": " ++ msg)
    | none => .error .index

end Verif.Ast

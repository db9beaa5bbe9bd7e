import Verif.Config.Model
/-!
# /repo/utils/stack.go: stack frames, function names and file paths

`runtime.Caller` is a list of frames, `os.Stat` and `os.ReadFile` are parameters. The regular expression is modelled by the function it
denotes (Go's leftmost match).
-/
set_option autoImplicit false
namespace Verif.Utils.Stack
open Verif.Strconv Verif.Enc Verif.Config

/-- stack.go L13-24 `Stack`: `frames` is what `runtime.Caller(1)`, `runtime.Caller(2)`, … report to this function, formatted as
`file:line`; `stack` is what was collected so far. The loop ends because there are finitely many frames. -/
def stackLoop : (frames : List Str) → (above : Nat) → (max : Int) → (stack : List Str) → (fuel : Nat) → List Str
  | _, _, _, stack, 0 => stack
  | frames, above, max, stack, fuel + 1 =>
    if (stack.length : Int) < max then
      match frames[above]? with
      | none => stack
      | some f => stackLoop frames (above + 1) max (stack ++ [f]) fuel
    else stack

/-- One iteration per frame, and one to find there are no more. stack.go L13-24. -/
def stack (frames : List Str) (above : Nat) (max : Int) : List Str := stackLoop frames above max [] (frames.length + 1)

/-- `strings.TrimPrefix`. Called in stack.go L51. -/
def trimPrefix (p s : Str) : Str := if p.isPrefixOf s then s.drop p.length else s

/-- `strings.TrimSuffix`. Called in stack.go L70. -/
def trimSuffix (p s : Str) : Str := if p.isSuffixOf s then s.take (s.length - p.length) else s

/-- L78-81: the module's name and directory. -/
structure Mod where
  name : Str
  path : Str
  deriving DecidableEq

/-- L46-57 `AbsFile`; `present` is whether `os.Stat` succeeds. -/
def absFile (present : Str → Bool) (m : Mod) (file : Str) : Str :=
  if present file then file
  else if trimPrefix m.name file ≠ file then m.path ++ trimPrefix m.name file
  else file

/-- L64-67 `ShortFunc`. -/
def shortFunc (f : Str) : Str := (splitOn '/' f).getLastD []

/-- L69-73 `FuncName`. -/
def funcName (f : Str) : Str := (splitOn '.' (trimSuffix (lit "[...]") f)).getLastD []

/-- The class `\S` of regular expressions. stack.go L89. -/
def nonSpace (c : Char) : Bool := c ≠ ' ' && c ≠ '\t' && c ≠ '\n' && c ≠ '\x0c' && c ≠ '\r'

/-- A match of `module +(\S+)` at the start of the text (L87): the submatch. -/
def moduleHere (s : Str) : Option Str :=
  if (lit "module ").isPrefixOf s then
    match ((s.drop 7).dropWhile (· = ' ')).takeWhile nonSpace with
    | [] => none
    | name => some name
  else none

/-- `regexp.MustCompile(…).FindStringSubmatch`: the leftmost match. stack.go L89-92. -/
def moduleName : Str → Option Str
  | [] => none
  | c :: cs =>
    match moduleHere (c :: cs) with
    | some n => some n
    | none => moduleName cs

/-- L78-102: looking for go.mod from the working directory upwards. `dirs` is the chain of directories, `body` what reading the file in a
directory gives ("" when it cannot be read). -/
def findMod (body : Str → Str) : List Str → Mod
  | [] => ⟨[], []⟩
  | d :: ds => if (body d).length > 0 then ⟨(moduleName (body d)).getD [], d⟩ else findMod body ds

end Verif.Utils.Stack

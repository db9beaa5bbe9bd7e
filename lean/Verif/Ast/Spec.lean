import Verif.Ast.Model
/-!
# Specification: a source file as the sequence of its events, read from left to right

Which assignment an argument refers to is specified by reading the events backwards from the call, skipping whole blocks.
-/
set_option autoImplicit false
namespace Verif.Ast
open Verif.Strconv Verif.Enc

/-- What happens in a file, in the order of the text. -/
inductive Tok where
  | opn
  | cls
  | asg (lhs : List (Option Str)) (src : Str)
  | call (line : Nat) (fn : Fn) (args : List ArgInfo)

mutual
def toks : Node → List Tok
  | .block kids => .opn :: (toksAll kids ++ [.cls])
  | .assign lhs src kids => .asg lhs src :: toksAll kids
  | .call line fn args kids => .call line fn args :: toksAll kids
  | .other kids => toksAll kids

def toksAll : List Node → List Tok
  | [] => []
  | n :: ns => toks n ++ toksAll ns
end

/-- The text last assigned to `k`, given the events before a point, nearest first; `d` is the number of blocks being skipped. -/
def lastAssigned (k : Str) : List Tok → Nat → Option Str
  | [], _ => none
  | .cls :: ts, d => lastAssigned k ts (d + 1)
  | .opn :: ts, d => lastAssigned k ts (d - 1)
  | .asg lhs src :: ts, 0 => if some k ∈ lhs then some src else lastAssigned k ts 0
  | .asg _ _ :: ts, d + 1 => lastAssigned k ts (d + 1)
  | .call _ _ _ :: ts, d => lastAssigned k ts d

/-- A function expression that ends in the name: `f(…)` or `….f(…)`. -/
inductive Names (fname : Str) : Fn → Str → Prop where
  | ident : Names fname (.ident fname) fname
  | qualified (x : Str) : Names fname (.sel (some x) fname) (x ++ '.' :: fname)
  | method : Names fname (.sel none fname) fname

/-- A call of the function on the line. -/
def Matches (fname : Str) (line : Nat) : Tok → Prop
  | .call l fn _ => l = line ∧ ∃ name, Names fname fn name
  | _ => False

/-- The text shown for an argument: that of the expression, or that of the statements of a function literal. -/
def shown (a : ArgInfo) : Str :=
  match a.lit with
  | some (some body) => body
  | _ => a.src

/-- What should be reported: the last matching call of the file, and for each argument its text with the text last assigned to a variable
of that name before the call, in the same block or a block around. -/
def Reported (fname : Str) (line : Nat) (ts : List Tok) (c : Call) : Prop :=
  ∃ (pre post : List Tok) (fn : Fn) (args : List ArgInfo), ts = pre ++ .call line fn args :: post ∧ Names fname fn c.name ∧
    (∀ t ∈ post, ¬ Matches fname line t) ∧
    c.args = args.map (fun a => ⟨shown a, (lastAssigned (shown a) pre.reverse 0).getD []⟩)

/-- Every assignment is inside some block; `d` is the number of blocks around. Go's grammar guarantees it for whole files. -/
def inBlocks : List Tok → Nat → Prop
  | [], _ => True
  | .opn :: ts, d => inBlocks ts (d + 1)
  | .cls :: ts, d => inBlocks ts (d - 1)
  | .asg _ _ :: ts, d => 0 < d ∧ inBlocks ts d
  | .call _ _ _ :: ts, d => inBlocks ts d

end Verif.Ast

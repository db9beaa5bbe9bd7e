import Verif.Errors.Model
/-!
# Specification vocabulary for error trees: the nodes in pre-order
-/
set_option autoImplicit false
namespace Verif.Errors

variable {S C : Type}

mutual
/-- All nodes of an error tree, outermost first, left to right. -/
def Err.nodes : Err S C → List (Err S C)
  | .leaf id m => [.leaf id m]
  | .wrap id m e => .wrap id m e :: e.nodes
  | .join id m es => .join id m es :: nodesAll es
  | .ctxErr e s c => .ctxErr e s c :: e.nodes
  | .httpErr code none => [.httpErr code none]
  | .httpErr code (some e) => .httpErr code (some e) :: e.nodes

def nodesAll : List (Err S C) → List (Err S C)
  | [] => []
  | e :: es => e.nodes ++ nodesAll es
end

/-- The identity a node can be compared by. -/
def Err.ident : Err S C → Option Nat
  | .leaf id _ => some id
  | .wrap id _ _ => some id
  | .join id _ _ => some id
  | _ => none

/-- The HTTP code of a node that is an `http.Error`. -/
def Err.code? : Err S C → Option Int
  | .httpErr code _ => some code
  | _ => none

/-- The stack and context of a node that is a `ctx.Error`. -/
def Err.ctx? : Err S C → Option (S × C)
  | .ctxErr _ s c => some (s, c)
  | _ => none

/-- One way of passing an error on. -/
inductive WrapOp (S C : Type) where
  /-- `ctx.WrapError(c, err)` -/
  | wrapError (stack : S) (c : C)
  /-- `ctx.NewErrorf(c, "...%w...", err)` -/
  | newErrorf (stack : S) (c : C) (id : Nat) (msg : String)
  /-- `fmt.Errorf("...%w...", err)` -/
  | errorf (id : Nat) (msg : String)
  /-- `http.NewErrorf(c, code, "...%w...", err)` -/
  | http (stack : S) (c : C) (code : Int) (id : Nat) (msg : String)

/-- Passing an error on once. -/
def WrapOp.apply (e : Err S C) : WrapOp S C → Err S C
  | .wrapError s c => (Errors.wrapError s c (some e)).getD e
  | .newErrorf s c id m => Errors.newErrorf s c id m [e]
  | .errorf id m => Errors.errorf id m [e]
  | .http s c code id m => httpNewErrorf s c code id m [e]

/-- Whether the operation promises a stack. -/
def WrapOp.stack? : WrapOp S C → Option (S × C)
  | .wrapError s c => some (s, c)
  | .newErrorf s c _ _ => some (s, c)
  | .errorf _ _ => none
  | .http s c _ _ _ => some (s, c)

end Verif.Errors

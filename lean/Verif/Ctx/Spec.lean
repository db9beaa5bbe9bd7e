import Verif.Ctx.Model
/-!
# Specification vocabulary: contexts as sequences of wrapping calls
-/
set_option autoImplicit false
namespace Verif.Ctx

/-- One call that derives a context. -/
inductive Wrap where
  | value (k : UKey) (v : Nat)
  | config (ptr : Nat)
  | cancel (id : Nat) (deadline : Option Nat)
  | tag (key json : String)
  | tracking (uuid suggest : String)
  | detach
  deriving DecidableEq

def Wrap.apply (quote : String → String) (c : Ctx) : Wrap → Ctx
  | .value k v => .value k v c
  | .config ptr => .config ptr c
  | .cancel id d => .cancel id d c
  | .tag k j => .tag k j c
  | .tracking u s => withTracking quote u c s
  | .detach => .detached c

/-- The tag a call attaches. -/
def Wrap.tag? (quote : String → String) : Wrap → Option (String × String)
  | .tag k j => some (k, j)
  | .tracking u s => some ("tracking-id", quote (if s = "" then u else s))
  | _ => none

/-- The cancel context a call creates. -/
def Wrap.cancel? : Wrap → Option Nat
  | .cancel id _ => some id
  | _ => none

/-- Deriving a context by several calls, in order. -/
def build (quote : String → String) (c : Ctx) (ws : List Wrap) : Ctx := ws.foldl (Wrap.apply quote) c

/-- Visiting a list in order until the callback fails. -/
def visit {St E : Type} (fn : String → String → St → St × Option E) : List (String × String) → St → St × Option E
  | [], s => (s, none)
  | (k, j) :: l, s =>
    match fn k j s with
    | (s', some e) => (s', some e)
    | (s', none) => visit fn l s'

end Verif.Ctx

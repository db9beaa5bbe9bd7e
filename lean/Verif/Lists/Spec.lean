import Verif.Lists.Model
/-!
# Specification of `lists.Set`: a membership predicate
-/
namespace Verif.Lists

variable {α : Type}

/-- Operations of a client of `Set`. -/
inductive SetOp (α : Type) where
  | add (t : α)
  | remove (t : α)
  | has (t : α)

/-- Model run: final set and the results returned. -/
def Set.run [DecidableEq α] (s : Set α) : List (SetOp α) → Set α × List Bool
  | [] => (s, [])
  | .add t :: ops => let (s', b) := s.add t; let (s'', bs) := Set.run s' ops; (s'', b :: bs)
  | .remove t :: ops => let (s', b) := s.remove t; let (s'', bs) := Set.run s' ops; (s'', b :: bs)
  | .has t :: ops => let (s'', bs) := Set.run s ops; (s'', s.has t :: bs)

/-- Specification: a set is a predicate (a membership function). -/
def specRun [DecidableEq α] (m : α → Bool) : List (SetOp α) → (α → Bool) × List Bool
  | [] => (m, [])
  | .add t :: ops => let (m', bs) := specRun (fun x => x == t || m x) ops; (m', (!m t) :: bs)
  | .remove t :: ops => let (m', bs) := specRun (fun x => x != t && m x) ops; (m', m t :: bs)
  | .has t :: ops => let (m', bs) := specRun m ops; (m', m t :: bs)

end Verif.Lists

import Verif.Openapi.Model
/-!
# What schemas should be
-/
set_option autoImplicit false
namespace Verif.Openapi
open Verif.Strconv Verif.Enc

mutual
/-- The keys a schema refers to. -/
def Schema.refs : Schema → List Str
  | .leaf _ _ _ => []
  | .ref key _ => [key]
  | .array _ _ s => s.refs
  | .map _ _ s => s.refs
  | .object _ _ ps => Schema.propRefs ps
/-- those of properties -/
def Schema.propRefs : List (Str × Schema) → List Str
  | [] => []
  | (_, s) :: ps => s.refs ++ Schema.propRefs ps
end

/-- The table has the key. -/
def Has (tab : Table) (k : Str) : Prop := ∃ s, lookupKey k tab = some s

/-- Every reference in the table resolves. -/
def Closed (tab : Table) : Prop := ∀ k s, lookupKey k tab = some s → ∀ r ∈ s.refs, Has tab r

/-- What a table holds is in the other. -/
def Keeps (tab tab' : Table) : Prop := ∀ k s, lookupKey k tab = some s → lookupKey k tab' = some s

/-- The table of a result. -/
def R.tab {α : Type} : R α → Option Table
  | .ok _ tab | .err tab | .errNil tab | .panic tab => some tab
  | .loop => none

/-- A type contains, at any depth, one that has no schema. -/
inductive HasBad (E : Env) : OTy → Prop where
  | bad : HasBad E .bad
  | ptr {t : OTy} : HasBad E t → HasBad E (.ptr t)
  | arr {t : OTy} : HasBad E t → HasBad E (.arr t)
  | key {k t : OTy} : HasBad E k → HasBad E (.map k t)
  | elem {k t : OTy} : HasBad E t → HasBad E (.map k t)
  | anon {fs : List Field} {f : Field} : f ∈ fs → HasBad E f.2.2 → HasBad E (.anon fs)
  | lit {i : Nat} {t : OTy} : E.defs i = .lit t → HasBad E t → HasBad E (.ref i)
  | struct {i : Nat} {pkg name : Str} {fs : List Field} {f : Field} : E.defs i = .struct pkg name fs → f ∈ fs → HasBad E f.2.2 → HasBad E (.ref i)

/-- A type that is itself one without schema, maybe behind pointers. -/
inductive IsBad (E : Env) : OTy → Prop where
  | bad : IsBad E .bad
  | ptr {t : OTy} : IsBad E t → IsBad E (.ptr t)
  | lit {i : Nat} {t : OTy} : E.defs i = .lit t → IsBad E t → IsBad E (.ref i)

/-- A type that does not contain itself, other than through named structs. -/
inductive Guarded (E : Env) : OTy → Prop where
  | prim (ty : Str) (fmt : Option Str) : Guarded E (.prim ty fmt)
  | bad : Guarded E .bad
  | ptr {t : OTy} : Guarded E t → Guarded E (.ptr t)
  | arr {t : OTy} : Guarded E t → Guarded E (.arr t)
  | map {k t : OTy} : Guarded E k → Guarded E t → Guarded E (.map k t)
  | anon {fs : List Field} : (∀ f ∈ fs, Guarded E f.2.2) → Guarded E (.anon fs)
  | lit {i : Nat} {t : OTy} : E.defs i = .lit t → Guarded E t → Guarded E (.ref i)
  | struct {i : Nat} {pkg name : Str} {fs : List Field} : E.defs i = .struct pkg name fs → Guarded E (.ref i)

/-- An environment with finitely many structs (the keys are in a list), where types contain themselves only through named structs. -/
def Env.Finite (E : Env) (keys : List Str) : Prop :=
  ∀ i pkg name fs, E.defs i = .struct pkg name fs → structKey pkg name ∈ keys ∧ ∀ f ∈ fs, Guarded E f.2.2

/-- Different structs have different keys. -/
def Env.DistinctKeys (E : Env) : Prop :=
  ∀ i j pkg name fs pkg' name' fs', E.defs i = .struct pkg name fs → E.defs j = .struct pkg' name' fs' → structKey pkg name = structKey pkg' name' → fs = fs'

/-- The table describes the struct: the properties are those of the fields. -/
def Describes (s : Schema) (fs : List Field) : Prop := ∃ fmt ps, s = .object fmt [] ps ∧ ∀ p, (lookupKey p ps).isSome = true ↔ ∃ f ∈ fs, propName f.1 = p

/-- Several calls, one after the other, as long as they end (panics being recovered). -/
inductive Calls (E : Env) : Table → List Schema → Table → Prop where
  | nil (tab : Table) : Calls E tab [] tab
  | ok {tab tab' tab'' : Table} {n : Nat} {doc : Str} {t : OTy} {s : Schema} {l : List Schema} :
      schema E n doc t tab = .ok s tab' → Calls E tab' l tab'' → Calls E tab (s :: l) tab''
  | fail {tab tab' tab'' : Table} {n : Nat} {doc : Str} {t : OTy} {l : List Schema} :
      (schema E n doc t tab).tab = some tab' → (∀ s, schema E n doc t tab ≠ .ok s tab') → Calls E tab' l tab'' → Calls E tab l tab''

end Verif.Openapi

import Verif.Enc.Unmarshal
/-!
# Factories of a `Handler` (enc/handler.go L15, L51-160)

What `unmarshal` does up to the generic part, for any type, with `reflect` as it is: which calls panic, and which values can be set. A factory returns an object, given by its
dynamic type (nothing for nil), or an error. The generic part (L159), types with their own methods (L74-109) and whether one type can be converted to another are parameters.
-/
set_option autoImplicit false
namespace Verif.Enc.Factory
open Verif.Strconv Verif.Enc

/-- The kinds of `reflect`, as far as `Elem` tells them apart (enc/handler.go L129-135). -/
inductive Kind where
  /-- an interface -/
  | iface
  /-- `Array`, `Chan`, `Map` or `Slice`: the type has an element type, the value has no `Elem` -/
  | container
  /-- `Bool`, `Func`, `Int`, `String`, `Struct`, … -/
  | plain
deriving DecidableEq

/-- Types: pointers, and all others by name. enc/handler.go L51-73. -/
inductive RType where
  | ptr (t : RType)
  | named (name : Nat) (kind : Kind)
deriving DecidableEq

/-- Values in a variable: a pointer is nil or points to a new variable, an interface is nil or holds a value of a type that is not an interface; others are opaque.
enc/handler.go L51-73. -/
inductive RVal where
  | nilPtr
  | to (v : RVal)
  | nilIface
  | iface (dyn : RType) (content : Nat)
  | opaque (content : Nat)
deriving DecidableEq

/-- The zero value. enc/handler.go L63, L66. -/
def zeroOf : RType → RVal
  | .ptr _ => .nilPtr
  | .named _ .iface => .nilIface
  | .named _ _ => .opaque 0

/-- `v.Elem()` for a variable of a type that is not a pointer (enc/handler.go L129): of an interface, what it holds, which is nothing (`none`, the zero `reflect.Value`) if it is
nil, and which can not be set. Of other kinds it panics. -/
def valueElem (k : Kind) (v : RVal) : Go (Option RType) :=
  match k with
  | .iface => match v with
    | .iface d _ => .ok (some d)
    | _ => .ok none
  | _ => .error .reflect

/-- `Value.Type()` (enc/handler.go L129): panics for the zero `reflect.Value`. -/
def valueType : Option RType → Go RType
  | some t => .ok t
  | none => .error .nilDeref

/-- `Type.Elem()` (enc/handler.go L131, L134): panics for types without an element type. -/
def typeElem : RType → Go Unit
  | .ptr _ => .ok ()
  | .named _ .container => .ok ()
  | .named _ _ => .error .reflect

/-- `Value.Set` on the content of an interface (enc/handler.go L135): it is not addressable. -/
def setContent : Go Unit := .error .reflect

/-- After the factory returned `obj` (enc/handler.go L128-136): whether it ends with an error. -/
def convert (canConvert : RType → RType → Bool) (name : Nat) (k : Kind) (v : RVal) (obj : Option RType) : Go Bool := do
  let e ← valueElem k v
  let t ← valueType e
  let s ← valueType obj
  if canConvert s t then
    typeElem (.named name k)
    setContent
    .ok false
  else
    typeElem (.named name k)
    .ok true

/-- What a factory returns: an error, or an object given by its dynamic type. enc/handler.go L15. -/
abbrev Made := Option (Option RType)

/-- `unmarshal` of something that is not null (enc/handler.go L51-160): the variable afterwards and how it ends. `own` is what types with their own methods do, `rest` the
generic part; `made` is what the factory for a type returns for the node, if there is one. -/
def unmarshal (canConvert : RType → RType → Bool) (made : RType → Option Made) (own : RType → Option (RVal → RVal × Status)) (rest : RType → RVal → RVal × Status) :
    RType → RVal → RVal × Status
  | .ptr t, _ => let r := unmarshal canConvert made own rest t (zeroOf t); (.to r.1, r.2)
  | .named name k, v =>
    match own (.named name k) with
    | some f => f v
    | none => match made (.named name k) with
      | none => rest (.named name k) v
      | some none => (v, .err)
      | some (some obj) => match convert canConvert name k v obj with
        | .ok false => (v, .ok)
        | .ok true => (v, .err)
        | .error _ => (v, .panic)

/-- The type below all pointers. enc/handler.go L60-73. -/
def RType.base : RType → RType
  | .ptr t => t.base
  | t => t

/-! ### C122 -/

theorem convert_panics (canConvert : RType → RType → Bool) (name : Nat) (k : Kind) (v : RVal) (obj : Option RType) :
    ∃ e, convert canConvert name k v obj = .error e := by
  cases k with
  | container => exact ⟨_, rfl⟩
  | plain => exact ⟨_, rfl⟩
  | iface =>
    unfold convert valueElem
    cases v with
    | iface d c =>
      cases obj with
      | none => exact ⟨_, rfl⟩
      | some s => cases h : canConvert s d <;> simp [valueType, typeElem, setContent, h, bind, Except.bind]
    | _ => exact ⟨_, rfl⟩

/-- **C122, violated.** A factory that makes an object never gets it into the variable: whatever the type it is registered for, however many pointers lead to it, whatever the
object, `Unmarshal` panics. -/
theorem C122_made_violated (canConvert : RType → RType → Bool) (made : RType → Option Made) (own : RType → Option (RVal → RVal × Status))
    (rest : RType → RVal → RVal × Status) (t : RType) (v : RVal) (obj : Option RType) (hown : own t.base = none) (hmade : made t.base = some (some obj)) :
    (unmarshal canConvert made own rest t v).2 = .panic := by
  induction t generalizing v with
  | ptr t ih => exact ih (zeroOf t) hown hmade
  | named name k =>
    simp only [RType.base] at hown hmade
    unfold unmarshal
    rw [hown, hmade]
    obtain ⟨e, he⟩ := convert_panics canConvert name k v obj
    simp only [he]

/-- **C122.** A factory's error is returned, and the variable is as it was, but for pointers to new zero values. -/
theorem C122_error_partial (canConvert : RType → RType → Bool) (made : RType → Option Made) (own : RType → Option (RVal → RVal × Status))
    (rest : RType → RVal → RVal × Status) (t : RType) (v : RVal) (hown : own t.base = none) (hmade : made t.base = some none) :
    (unmarshal canConvert made own rest t v).2 = .err ∧ (t.base = t → (unmarshal canConvert made own rest t v).1 = v) := by
  induction t generalizing v with
  | ptr t ih =>
    refine ⟨(ih (zeroOf t) hown hmade).1, ?_⟩
    intro h
    exfalso
    have : ∀ t : RType, t.base ≠ .ptr t ∧ ∀ s, t.base ≠ .ptr s := by
      intro t
      induction t with
      | ptr t ih => exact ⟨fun h => ih.2 _ h, fun s h => ih.2 s h⟩
      | named n k => exact ⟨by simp [RType.base], by simp [RType.base]⟩
    exact (this t).2 _ h
  | named name k =>
    simp only [RType.base] at hown hmade
    unfold unmarshal
    simp [hown, hmade]

/-- **C122.** Types without a factory are handled as if there were no factories; a factory for a pointer type is never asked. -/
theorem C122_other_partial (canConvert : RType → RType → Bool) (made made' : RType → Option Made) (own : RType → Option (RVal → RVal × Status))
    (rest : RType → RVal → RVal × Status) (t : RType) (v : RVal) (h : made t.base = made' t.base) :
    unmarshal canConvert made own rest t v = unmarshal canConvert made' own rest t v := by
  induction t generalizing v with
  | ptr t ih => simp only [unmarshal]; rw [ih (zeroOf t) h]
  | named name k => simp only [RType.base] at h; simp only [unmarshal, h]

/-- A value behind as many pointers as the type has. -/
def behind : RType → RVal → RVal
  | .ptr t, v => .to (behind t v)
  | .named _ _, v => v

/-- The variable below the pointers: a new one, if there are any. -/
def below : RType → RVal → RVal
  | .ptr t, _ => below t (zeroOf t)
  | .named _ _, v => v

/-- **C122.** Without a factory, what is read ends up behind new pointers. -/
theorem C122_pointers_partial (canConvert : RType → RType → Bool) (made : RType → Option Made) (own : RType → Option (RVal → RVal × Status))
    (rest : RType → RVal → RVal × Status) (t : RType) (v : RVal) (hown : own t.base = none) (hmade : made t.base = none) :
    unmarshal canConvert made own rest t v = (behind t (rest t.base (below t v)).1, (rest t.base (below t v)).2) := by
  induction t generalizing v with
  | named name k =>
    simp only [RType.base] at hown hmade
    simp [unmarshal, hown, hmade, behind, below, RType.base]
  | ptr t ih => simp only [unmarshal, ih (zeroOf t) hown hmade, RType.base, behind, below]

/-- An interface with a factory: nil or not, and an object of the right type. -/
example : let animal := RType.named 1 .iface
    let made : RType → Option Made := fun t => if t = animal then some (some (some (.named 2 .plain))) else none
    let u := unmarshal (fun _ _ => true) made (fun _ => none) (fun _ v => (v, .ok))
    u animal .nilIface = (.nilIface, .panic) ∧ u (.ptr animal) .nilPtr = (.to .nilIface, .panic) ∧
    u animal (.iface (.named 2 .plain) 7) = (.iface (.named 2 .plain) 7, .panic) ∧
    u (.named 3 .plain) (.opaque 5) = (.opaque 5, .ok) := by decide

end Verif.Enc.Factory

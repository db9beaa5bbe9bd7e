import Verif.Enc.Hooks
import Verif.Openapi.Props
/-!
# The documentation of types with a marshaller (C167) (api/openapi/schema.go)

`schemaFromType` writes the zero value of a type that has `MarshalJSON` or `MarshalNode`, and looks at the first byte of the text (L85-122). A type is given by what its
method does, and by the type it has without the method (`own`).
-/
set_option autoImplicit false
namespace Verif.Openapi.Marshallers
open Verif.Strconv Verif.Enc Verif.Openapi
variable {X : Ext} {V : Type}

/-- A type with `MarshalJSON` or `MarshalNode`: whether the method is declared on the pointer, what `enc.Marshal` makes of what it returns, and the zero value.
api/openapi/schema.go L62, L85; enc/handler.go L180-195. -/
structure Hook (X : Ext) (V : Type) where
  onPointer : Bool
  method : V → Res (Option (Node X))
  zero : V

/-- A type with `MarshalJSON`. enc/handler.go L190-195. -/
def ofJSON (T : Hooks.Hooked X V) : Hook X V := ⟨T.onPointer, fun v => Hooks.viaJSON (T.marshalJSON v), T.zero⟩

/-- The switch on the first byte of the text (L90-122): the type whose schema is made, `own` if it digs further; nothing stands for a panic. A text is never empty, `j[0]` would panic. -/
def byText (own : OTy) : Str → Option OTy
  | [] => none
  | c :: _ =>
    if c = '{' ∨ c = 'n' ∨ c = '[' then some own
    else if c = '"' then some (.prim (lit "string") none)
    else if c = 'f' ∨ c = 't' then some (.prim (lit "boolean") none)
    else if isDigit c ∨ c = '.' then some (.prim (lit "number") none)
    else none

/-- The type whose schema is made for a type with a marshaller (L62, L85-123): the zero value has the methods that are not declared on the pointer; if writing it fails, the type is
seen as if it had no method. Nothing stands for a panic. -/
def seen (T : Hook X V) (own : OTy) : Option OTy :=
  if T.onPointer then some own
  else match T.method T.zero with
    | .err => some own
    | .panic => none
    | .ok n => match Hooks.encodeOpt n with
      | .error _ => none
      | .ok s => byText own s

/-! ### what should be -/

/-- The JSON type of what is written. -/
def jsonType : Option (Node X) → Str
  | none | some .nil => lit "null"
  | some (.bool _) => lit "boolean"
  | some (.int _) | some (.float _) | some (.digits _) => lit "number"
  | some (.str _) | some (.time _) | some (.dur _) => lit "string"
  | some (.list _) => lit "array"
  | some (.map _) | some (.pairs _) => lit "object"

/-- A boolean, number or string. -/
def Scalar : Option (Node X) → Bool
  | some (.bool _) | some (.int _) | some (.float _) | some (.digits _) | some (.str _) | some (.time _) | some (.dur _) => true
  | _ => false

/-- A negative number, or negative zero. -/
def Negative : Option (Node X) → Bool
  | some (.int i) => i < 0
  | some (.float f) => (X.fJson f).any fun s => s.head? = some '-'
  | some (.digits s) => s.head? = some '-'
  | _ => false

/-- There is a JSON text for it. -/
def Writable : Option (Node X) → Bool
  | none => true
  | some n => n.encodable

/-- The JSON type of a type, by its kind. -/
inductive Shape (E : Env) : OTy → Str → Prop where
  | prim (ty : Str) (fmt : Option Str) : Shape E (.prim ty fmt) ty
  | ptr {t : OTy} {ty : Str} : Shape E t ty → Shape E (.ptr t) ty
  | arr (t : OTy) : Shape E (.arr t) (lit "array")
  | map (k t : OTy) : Shape E (.map k t) (lit "object")
  | anon (fs : List Field) : Shape E (.anon fs) (lit "object")
  | lit {i : Nat} {t : OTy} {ty : Str} : E.defs i = .lit t → Shape E t ty → Shape E (.ref i) ty
  | struct {i : Nat} {pkg name : Str} {fs : List Field} : E.defs i = .struct pkg name fs → Shape E (.ref i) (lit "object")

/-- The type that a schema shows, with its reference followed. -/
def shown (tab : Table) : Schema → Str
  | .ref key _ => match lookupKey key tab with
    | some d => d.type
    | none => []
  | s => s.type

/-! ### the switch -/

theorem digit_switch (own : OTy) (c : Char) (r : Str) (h : isDigit c = true) : byText own (c :: r) = some (.prim (lit "number") none) := by
  have h1 : ¬ (c = '{' ∨ c = 'n' ∨ c = '[') := by rintro (rfl | rfl | rfl) <;> exact absurd h (by decide)
  have h2 : c ≠ '"' := by rintro rfl; exact absurd h (by decide)
  have h3 : ¬ (c = 'f' ∨ c = 't') := by rintro (rfl | rfl) <;> exact absurd h (by decide)
  simp only [byText, h1, h2, h3, if_false, h, true_or, if_true]

theorem number_switch (own : OTy) (s : Str) (h : isNumber s = true) :
    byText own s = if s.head? = some '-' then none else some (.prim (lit "number") none) := by
  obtain ⟨c, r, rfl, hc⟩ := isNumber_head s h
  by_cases hm : c = '-'
  · subst hm; rfl
  · rcases hc with hc | hc
    · simp [digit_switch own c r hc, hm]
    · exact absurd hc hm

theorem text_switch (hX : Laws X) (own : OTy) (n : Option (Node X)) (hw : Writable n = true) :
    ∃ s, Hooks.encodeOpt n = .ok s ∧ byText own s = if Negative n then none else if Scalar n then some (.prim (jsonType n) none) else some own := by
  cases n with
  | none => exact ⟨_, rfl, rfl⟩
  | some n =>
    refine ⟨n.text, by simp only [Hooks.encodeOpt, encode, show n.encodable = true from hw, if_true], ?_⟩
    cases n with
    | nil => rfl
    | bool b => cases b <;> rfl
    | str s => rfl
    | int i =>
      show byText own (fmtInt i) = _
      rw [number_switch own _ (isNumber_fmtInt i)]
      by_cases hi : i < 0
      · simp [fmtInt, Negative, hi]
      · have : (fmtInt i).head? ≠ some '-' := by
          simp only [fmtInt, hi, if_false]
          intro hh
          cases hf : fmtNat i.natAbs with
          | nil => rw [hf] at hh; cases hh
          | cons c r =>
            rw [hf] at hh
            injection hh with hh
            exact (fmtNat_no_sign i.natAbs r).1 (by rw [hf, hh])
        simp [Negative, hi, this, Scalar, jsonType]
    | float f =>
      have hf : (X.fJson f).isSome = true := hw
      obtain ⟨s, hs⟩ := Option.isSome_iff_exists.1 hf
      show byText own ((X.fJson f).getD []) = _
      simp only [hs, Option.getD_some, number_switch own s (hX.fJson_number f s hs), Negative, Option.any_some, decide_eq_true_eq, Scalar, if_true, jsonType]
    | digits s =>
      have hs : isNumber s = true := hw
      show byText own s = _
      simp only [number_switch own s hs, Negative, decide_eq_true_eq, Scalar, if_true, jsonType]
    | list l => rfl
    | map m => rfl
    | pairs l => rfl
    | time t => rfl
    | dur d =>
      show byText own (if d = 0 then jsonStr [] else jsonStr (X.dStr d)) = _
      split <;> rfl

/-- C167, what holds of the switch: a type whose zero value is written as a boolean, a string or a number that is not negative is documented as that; one whose zero value is written as a
list, an object or null, or not at all, as if it had no marshaller. Missing are negative numbers, see `C167_negative_violated`, and the cases where the type without marshaller has another shape. -/
theorem C167_seen_partial (hX : Laws X) (T : Hook X V) (own : OTy) (hp : T.onPointer = false) (n : Option (Node X)) (hm : T.method T.zero = .ok n)
    (hw : Writable n = true) : seen T own = if Negative n then none else if Scalar n then some (.prim (jsonType n) none) else some own := by
  obtain ⟨s, h1, h2⟩ := text_switch hX own n hw
  simp only [seen, hp, Bool.false_eq_true, if_false, hm, h1, h2]

/-- C167: making the documentation panics in the switch if and only if the zero value is written as a negative number, or writing it panics. -/
theorem C167_panics (hX : Laws X) (T : Hook X V) (own : OTy) : seen T own = none ↔
    T.onPointer = false ∧ (T.method T.zero = .panic ∨ ∃ n, T.method T.zero = .ok n ∧ (Negative n = true ∨ Writable n = false)) := by
  cases hp : T.onPointer with
  | true => simp [seen, hp]
  | false =>
    cases hm : T.method T.zero with
    | err => simp [seen, hp, hm]
    | panic => simp [seen, hp, hm]
    | ok n =>
      cases hw : Writable n with
      | true =>
        rw [C167_seen_partial hX T own hp n hm hw]
        cases hn : Negative n with
        | true => simp [hn]
        | false => cases hs : Scalar n <;> simp [hn, hw]
      | false =>
        cases n with
        | none => cases hw
        | some n =>
          have : n.encodable = false := hw
          simp [seen, hp, hm, Hooks.encodeOpt, encode, this, hw]

/-! ### the schema -/

theorem body_shape (E : Env) (n : Nat) (orig t : OTy) (ty : Str) (hs : Shape E t ty) (tab tab' : Table) (s : Schema) (h : body E n orig t tab = .ok s tab') :
    ((∀ key doc, s ≠ .ref key doc) ∧ s.type = ty) ∨ (ty = lit "object" ∧ ∃ key doc, s = .ref key doc) := by
  induction hs generalizing n orig with
  | prim ty fmt =>
    cases n with
    | zero => cases h
    | succ n => rw [body] at h; injection h with h; subst h; exact .inl ⟨fun _ _ h => (nomatch h), rfl⟩
  | ptr _ ih =>
    cases n with
    | zero => cases h
    | succ n => rw [body] at h; exact ih n orig h
  | arr t =>
    cases n with
    | zero => cases h
    | succ n =>
      rw [body] at h
      cases hr : fin [] (body E n t t tab) with
      | ok a tb => rw [hr] at h; injection h with h; subst h; exact .inl ⟨fun _ _ h => (nomatch h), rfl⟩
      | err tb => rw [hr] at h; cases h
      | errNil tb => rw [hr] at h; cases h
      | panic tb => rw [hr] at h; cases h
      | loop => rw [hr] at h; cases h
  | map k t =>
    cases n with
    | zero => cases h
    | succ n =>
      rw [body] at h
      cases hr : fin [] (body E n k k tab) with
      | ok a tb =>
        rw [hr] at h
        simp only [R.bind] at h
        cases hr2 : fin [] (body E n t t tb) with
        | ok a tb => rw [hr2] at h; injection h with h; subst h; exact .inl ⟨fun _ _ h => (nomatch h), rfl⟩
        | err tb => rw [hr2] at h; cases h
        | errNil tb => rw [hr2] at h; cases h
        | panic tb => rw [hr2] at h; cases h
        | loop => rw [hr2] at h; cases h
      | err tb => rw [hr] at h; cases h
      | errNil tb => rw [hr] at h; cases h
      | panic tb => rw [hr] at h; cases h
      | loop => rw [hr] at h; cases h
  | anon fs =>
    cases n with
    | zero => cases h
    | succ n =>
      rw [body] at h
      cases hr : fieldsWith (fun doc t tab => fin doc (body E n t t tab)) none fs [] tab with
      | ok a tb => rw [hr] at h; injection h with h; subst h; exact .inl ⟨fun _ _ h => (nomatch h), rfl⟩
      | err tb => rw [hr] at h; cases h
      | errNil tb => rw [hr] at h; cases h
      | panic tb => rw [hr] at h; cases h
      | loop => rw [hr] at h; cases h
  | lit hd _ ih =>
    cases n with
    | zero => cases h
    | succ n => rw [body, hd] at h; exact ih n orig h
  | @struct i pkg name fs hd =>
    refine .inr ⟨rfl, structKey pkg name, [], ?_⟩
    cases n with
    | zero => cases h
    | succ n =>
      rw [body, hd] at h
      simp only at h
      split at h
      · injection h with h; exact h.symm
      · cases hr : fieldsWith (fun doc t tab => fin doc (body E n t t tab)) (some (structKey pkg name, E.str orig)) fs []
            (insertKey (structKey pkg name) (.object (E.str orig) [] []) tab) with
        | ok a tb => rw [hr] at h; injection h with h; exact h.symm
        | err tb => rw [hr] at h; cases h
        | errNil tb => rw [hr] at h; cases h
        | panic tb => rw [hr] at h; cases h
        | loop => rw [hr] at h; cases h

/-- What the table holds are objects. -/
def Objects (tab : Table) : Prop := ∀ k s, lookupKey k tab = some s → s.type = lit "object"

theorem schema_objects (E : Env) (n : Nat) (doc : Str) (t : OTy) (tab tab' : Table) (s : Schema) (hc : Closed tab) (ho : Objects tab) (h : schema E n doc t tab = .ok s tab') :
    Objects tab' := by
  intro k d hk
  cases hl : lookupKey k tab with
  | none =>
    obtain ⟨i, pkg, name, fs, _, _, fmt, ps, rfl, _⟩ := C54_described E n doc t tab tab' hc s h k d hl hk
    rfl
  | some d' =>
    have hp := schema_post E n doc t tab hc
    rw [h] at hp
    have := hp.2.1 k d' hl
    rw [hk] at this; injection this with this; subst this
    exact ho k d hl

theorem schema_shown (E : Env) (n : Nat) (doc : Str) (t : OTy) (ty : Str) (hs : Shape E t ty) (tab tab' : Table) (s : Schema) (hc : Closed tab) (ho : Objects tab)
    (h : schema E n doc t tab = .ok s tab') : shown tab' s = ty := by
  have ho' := schema_objects E n doc t tab tab' s hc ho h
  have hres := (C54_resolves E tab tab' [s] hc (.ok h (.nil _))).2.2 s List.mem_cons_self
  simp only [schema] at h
  cases hb : body E n t t tab with
  | ok a tb =>
    rw [hb] at h
    simp only [fin, R.ok.injEq] at h
    obtain ⟨rfl, rfl⟩ := h
    rcases body_shape E n t t ty hs tab tb a hb with ⟨h1, h2⟩ | ⟨rfl, key, d, rfl⟩
    · cases a with
      | ref key d => exact absurd rfl (h1 key d)
      | leaf => exact h2
      | array => exact h2
      | map => exact h2
      | object => exact h2
    · obtain ⟨e, he⟩ := hres key (by simp [Schema.finish, Schema.refs])
      simp only [Schema.finish, shown, he]
      exact ho' key e he
  | err tb => rw [hb] at h; cases h
  | errNil tb => rw [hb] at h; cases h
  | panic tb => rw [hb] at h; cases h
  | loop => rw [hb] at h; cases h

/-- C167, what holds of the documentation: if it is made then it shows the JSON type of what the zero value is written as, in exactly the cases where that is a boolean, a number, a string, or of the
type's own shape. Missing are the others, see `C167_shape_violated`. -/
theorem C167_zero_partial (hX : Laws X) (E : Env) (T : Hook X V) (own t : OTy) (ty : Str) (hp : T.onPointer = false) (hs : Shape E own ty) (n : Option (Node X))
    (hm : T.method T.zero = .ok n) (hw : Writable n = true) (ht : seen T own = some t) (k : Nat) (doc : Str) (tab tab' : Table) (hc : Closed tab) (ho : Objects tab) (s : Schema)
    (h : schema E k doc t tab = .ok s tab') : shown tab' s = jsonType n ↔ Scalar n = true ∨ ty = jsonType n := by
  rw [C167_seen_partial hX T own hp n hm hw] at ht
  cases hn : Negative n with
  | true => simp [hn] at ht
  | false =>
    cases hsc : Scalar n with
    | true =>
      simp [hn, hsc] at ht
      subst ht
      simp [schema_shown E k doc _ _ (.prim _ _) tab tab' s hc ho h]
    | false =>
      simp [hn, hsc] at ht
      subst ht
      simp [schema_shown E k doc _ _ hs tab tab' s hc ho h]

/-- C167: a type whose marshaller writes scalars of one type for all values is documented as what all its values are. -/
theorem C167_all (hX : Laws X) (E : Env) (T : Hook X V) (own t : OTy) (hp : T.onPointer = false) (ty : Str)
    (hall : ∀ v, ∃ n, T.method v = .ok n ∧ Writable n = true ∧ Scalar n = true ∧ jsonType n = ty) (ht : seen T own = some t) (k : Nat) (doc : Str) (tab : Table) :
    schema E (k + 1) doc t tab = .ok (.leaf ty (fixFmt ty (E.str t)) doc) tab := by
  obtain ⟨n, hm, hw, hs, rfl⟩ := hall T.zero
  rw [C167_seen_partial hX T own hp n hm hw] at ht
  cases hn : Negative n with
  | true => simp [hn] at ht
  | false =>
    simp [hn, hs] at ht
    subst ht
    rfl

/-! ### what does not hold -/

/-- C167 (negation): whatever else it writes, a type whose zero value is written as a negative number can not be documented. -/
theorem C167_negative_violated (hX : Laws X) (T : Hook X V) (own : OTy) (hp : T.onPointer = false) (s : Str) (hn : isNumber ('-' :: s) = true)
    (hm : T.method T.zero = .ok (some (.digits ('-' :: s)))) : seen T own = none := by
  rw [C167_seen_partial hX T own hp _ hm hn]
  rfl

/-- Degrees Celsius of a `type Kelvin float64`: nothing is `-273.15`. -/
example (hX : Laws X) (T : Hooks.Hooked X Nat) (hp : T.onPointer = false) (h : T.marshalJSON T.zero = .ok (lit "-273.15")) (own : OTy) : seen (ofJSON T) own = none :=
  C167_negative_violated hX (ofJSON T) own hp (lit "273.15") (by decide) (by simp only [ofJSON, h]; rfl)

/-- C167 (negation): a struct that is written as a list is documented as an object, and a string that is written as an object as a string. -/
theorem C167_shape_violated (hX : Laws X) (E : Env) (T : Hook X V) (own : OTy) (ty : Str) (hp : T.onPointer = false) (hs : Shape E own ty) (n : Node X)
    (hm : T.method T.zero = .ok (some n)) (hw : n.encodable = true) (hsc : Scalar (some n) = false) (hty : ty ≠ jsonType (some n)) (k : Nat) (doc : Str) (tab tab' : Table) (hc : Closed tab)
    (ho : Objects tab) (s : Schema) : seen T own = some own ∧ (schema E k doc own tab = .ok s tab' → shown tab' s = ty ∧ shown tab' s ≠ jsonType (some n)) := by
  have h1 := C167_seen_partial hX T own hp _ hm hw
  have hneg : Negative (some n) = false := by cases n <;> first | rfl | cases hsc
  rw [hneg, hsc] at h1
  refine ⟨by simpa using h1, fun h => ?_⟩
  have := schema_shown E k doc own ty hs tab tab' s hc ho h
  exact ⟨this, by rw [this]; exact hty⟩

/-- `type Point struct { X, Y int }`, written as `[0,0]` -/
def point : Env := {
  defs := fun _ => .struct (lit "a") (lit "Point") [({ name := lit "X" }, [], .prim (lit "number") none), ({ name := lit "Y" }, [], .prim (lit "number") none)]
  str := fun _ => lit "a.Point" }

theorem closed_nil : Closed [] := fun _ _ h => nomatch h
theorem objects_nil : Objects [] := fun _ _ h => nomatch h

example (hX : Laws X) (T : Hooks.Hooked X Nat) (hp : T.onPointer = false) (h : T.marshalJSON T.zero = .ok (lit "[0,0]")) :
    seen (ofJSON T) (.ref 0) = some (.ref 0) ∧ ∃ s tab, schema point 2 [] (.ref 0) [] = .ok s tab ∧ shown tab s = lit "object" := by
  refine ⟨(C167_shape_violated hX point (ofJSON T) (.ref 0) (lit "object") hp (.struct rfl) (.list [.digits (lit "0"), .digits (lit "0")]) (by simp only [ofJSON, h]; rfl) rfl rfl
    (show lit "object" ≠ lit "array" by decide) 0 [] [] [] closed_nil objects_nil (.leaf [] [] [])).1, _, _, rfl, rfl⟩

/-- C167 (negation): a type whose zero value is written as null, or is refused, is documented by its kind whatever the others are written as: a `sql.NullString` with the methods that
everybody gives it is documented as an object, and written as a string. -/
theorem C167_null_violated (E : Env) (T : Hook X V) (own : OTy) (ty : Str) (hs : Shape E own ty) (hz : T.method T.zero = .ok (some .nil) ∨ T.method T.zero = .err)
    (v : V) (n : Option (Node X)) (_ : T.method v = .ok n) (hn : ty ≠ jsonType n) (k : Nat) (doc : Str) (tab tab' : Table) (hc : Closed tab) (ho : Objects tab) (s : Schema) :
    seen T own = some own ∧ (schema E k doc own tab = .ok s tab' → shown tab' s ≠ jsonType n) := by
  refine ⟨?_, fun h => by rw [schema_shown E k doc own ty hs tab tab' s hc ho h]; exact hn⟩
  cases hp : T.onPointer with
  | true => simp [seen, hp]
  | false =>
    rcases hz with h | h
    · simp only [seen, hp, Bool.false_eq_true, if_false, h]; rfl
    · simp only [seen, hp, Bool.false_eq_true, if_false, h]

/-- C167 (negation): if the method is declared on the pointer then a pointer to the type is documented by the kind of the type, although it is written by the method. -/
theorem C167_pointer_violated (E : Env) (T : Hooks.Hooked X V) (own : OTy) (ty : Str) (hs : Shape E own ty) (hp : T.onPointer = true) (v : V) (j : Str) (n : Option (Node X))
    (hj : T.marshalJSON v = .ok j) (hd : decode j = some n) (hn : ty ≠ jsonType n) (k : Nat) (doc : Str) (tab tab' : Table) (hc : Closed tab) (ho : Objects tab) (s : Schema) :
    seen (ofJSON T) (.ptr own) = some (.ptr own) ∧ Hooks.marshalPtr T (some v) = .ok n ∧ (schema E k doc (.ptr own) tab = .ok s tab' → shown tab' s ≠ jsonType n) := by
  refine ⟨by simp [seen, ofJSON, hp], ?_, fun h => by rw [schema_shown E k doc _ ty (.ptr hs) tab tab' s hc ho h]; exact hn⟩
  simp only [Hooks.marshalPtr, Hooks.viaJSON, hj, Res.bind, hd]

end Verif.Openapi.Marshallers

import Verif.Enc.TypedProps
/-!
# What null does to a variable (C141)
-/
set_option autoImplicit false
namespace Verif.Enc
open Verif.Strconv
variable {X : Ext}

/-- C141, for every type but `enc.Time` and `enc.Node`: `null`, and no node at all, leave the zero value in the variable, whatever was there, without an error and without asking the callback. -/
theorem C141_zero_partial (H : Handler X) (O : Order) (t : Ty) (old : Val X t) (ht : t ≠ .encTime) (hn : t ≠ .node) :
    unmarshal H O t .nil old = .done (zero X t) ∧ H.unmarshal O t none old = .done (zero X t) := by
  have : unmarshal H O t .nil old = .done (zero X t) := by
    cases t with
    | encTime => exact absurd rfl ht
    | node => exact absurd rfl hn
    | time => simp [unmarshal, uTime, Node.encodable, zero]; rfl
    | _ => simp only [unmarshal, uBool, numOut, uString, Node.intoAny, Node.native, uEncDur, uOpaque, uIface, uPtr, uSlice, uArray, uMap, uObject, zero] <;> rfl
  exact ⟨this, this⟩

/-- C141: an `enc.Node` is given the node `Nil`, which is not the zero value of an `enc.Node`, but is written as `null` again. -/
theorem C141_node (hX : Laws X) (H : Handler X) (O O' : Order) (old : Val X .node) :
    unmarshal H O .node .nil old = .done (some .nil : Option (Node X)) ∧ marshal O' .node (some .nil : Option (Node X)) = .ok .nil := by
  constructor
  · simp only [unmarshal]
  · have := C39_round_trip hX (.nil : Node X) trivial _ rfl (Nat.zero_le _)
    simp only [Node.norm] at this
    simp only [marshal, marshalNode, Node.encodable, if_true, this]

/-- C141, violated: an `enc.Time` refuses `null`, which a `time.Time`, an `enc.Duration` and a pointer to an `enc.Time` take; and keeps what it was. -/
theorem C141_time_violated (H : Handler X) (O : Order) (old : X.T) (d : Int) (p : Option X.T) :
    unmarshal H O .encTime .nil old = .mk' old .err ∧ unmarshal H O .time .nil old = .done X.tZero ∧ unmarshal H O .encDur .nil d = .done (0 : Int)
    ∧ unmarshal H O (.ptr .encTime) .nil p = .done (none : Option X.T) := by
  refine ⟨?_, ?_, ?_, ?_⟩
  · simp [unmarshal, uEncTime, Node.jsonString, Node.jsonPanics]; rfl
  · simp [unmarshal, uTime, Node.encodable]; rfl
  · simp only [unmarshal, uEncDur]; rfl
  · simp only [unmarshal, uPtr]; rfl

/-- C141, violated: for a whole struct `null` also clears the fields tagged `json:"-"`, which no object can name. Any such field that is not zero is lost. -/
theorem C141_secret_violated (H : Handler X) (O : Order) (fs : Fields) (old : FVals X fs) (hs : ¬ SameSkipped fs old (zeroFields X fs)) :
    ¬ SameSkipped fs old (unmarshal H O (.struct fs) .nil old).val := by
  have : unmarshal H O (.struct fs) .nil old = .done (zeroFields X fs) := by simp only [unmarshal, uObject]; rfl
  rw [this]; exact hs

/-- C141: in an object: a field whose value is `null` is cleared, the fields that follow are set as if it had not been there. -/
theorem C141_field_partial (H : Handler X) (O : Order) (f : FieldInfo) (t : Ty) (fs : Fields) (tag : Tag) (m : List (Str × Node X)) (v : Val X t) (vs : FVals X fs)
    (he : f.exported = true) (hp : parseTag f = some tag) (hm : lookupKey tag.json m = some .nil) (ht : t ≠ .encTime) (hn : t ≠ .node) :
    (uFields H O (.cons f t fs) m (v, vs)).val = (zero X t, (uFields H O fs m vs).val) ∧ (uFields H O (.cons f t fs) m (v, vs)).st = (uFields H O fs m vs).st := by
  have := (C141_zero_partial H O t v ht hn).1
  simp only [uFields, he, if_true, hp, hm, this, Out.done]
  exact ⟨rfl, trivial⟩

example (H : Handler X) (O : Order) : ¬ SameSkipped secretTy (lit "old", ()) (unmarshal (X := X) H O (.struct secretTy) .nil (lit "old", ())).val :=
  C141_secret_violated H O secretTy _ fun h => absurd (show lit "old" = ([] : Str) from h.1 rfl) (by decide)
example (H : Handler X) (O : Order) : unmarshal (X := X) H O (.slice .bool) .nil (some [true, false]) = .done (none : Option (List Bool)) :=
  (C141_zero_partial H O (.slice .bool) _ (by simp) (by simp)).1

end Verif.Enc

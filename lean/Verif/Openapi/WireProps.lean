import Verif.Openapi.Wire
import Verif.Enc.GoodLemmas
import Verif.Enc.TypedProps
/-!
# The JSON that is written is of the documented type (C128)
-/
set_option autoImplicit false
namespace Verif.Openapi.Wire
open Verif.Strconv Verif.Enc Verif.Openapi

variable {X : Ext}

/-- The types of JSON values. -/
def jsonType : Node X → Str
  | .nil => lit "null"
  | .bool _ => lit "boolean"
  | .int _ | .float _ | .digits _ => lit "number"
  | .str _ | .time _ | .dur _ => lit "string"
  | .list _ => lit "array"
  | .map _ | .pairs _ => lit "object"

/-- JSON that fits a schema. -/
inductive Conforms : Doc → Node X → Prop where
  | leaf {ty : Str} {n : Node X} : jsonType n = ty → Conforms (.leaf ty) n
  | array {d : Doc} {l : List (Node X)} : (∀ n ∈ l, Conforms d n) → Conforms (.array d) (.list l)
  | map {d : Doc} {m : List (Str × Node X)} : (∀ e ∈ m, Conforms d e.2) → Conforms (.map d) (.map m)
  | object {ps : Props} {l : List ((Str × Str) × Node X)} : (∀ p ∈ l, ps.find p.1.2 ≠ none) → (∀ p ∈ l, ∀ d, ps.find p.1.2 = some d → Conforms d p.2) → Conforms (.object ps) (.pairs l)

/-- What the other side reads has the same type. -/
theorem jsonType_norm (n : Node X) : jsonType n.norm = jsonType n := by
  cases n <;> rfl

def propNames : Fields → List Str
  | .nil => []
  | .cons f _ fs => propName f :: propNames fs

mutual
/-- Values without anything that is documented wrongly: no `[]byte`, no interfaces, nothing nil but in fields that omit it; and all properties have different names. -/
def Plain : (t : Ty) → Val X t → Prop
  | .any, _ => False
  | .node, _ => False
  | .iface, _ => False
  | .ptr t, v => match (v : Option (Val X t)) with
    | none => False
    | some x => Plain t x
  | .slice t, v => isByte t = false ∧ match (v : Option (List (Val X t))) with
    | none => False
    | some l => ∀ x ∈ l, Plain t x
  | .array n t, v => ∀ x ∈ (v : { l : List (Val X t) // l.length = n }).1, Plain t x
  | .map _ t, v => match (v : Option (List (Str × Val X t))) with
    | none => False
    | some m => ∀ e ∈ m, Plain t e.2
  | .struct fs, v => (propNames fs).Nodup ∧ PlainFields fs v
  | _, _ => True
def PlainFields : (fs : Fields) → FVals X fs → Prop
  | .nil, _ => True
  | .cons f t fs, (v, vs) => (f.exported = false ∨ f.tag = lit "-" ∨ (∃ tag, parseTag f = some tag ∧ tag.omitEmpty = true ∧ isNilVal t v) ∨ Plain t v) ∧
    PlainFields fs vs
end

theorem find_none (k : Str) : ∀ (fs : Fields) (ps : Props), wireFields fs = some ps → k ∉ propNames fs → ps.find k = none
  | .nil, ps, h, _ => by simp only [wireFields] at h; injection h with h; subst h; rfl
  | .cons f t fs, ps, h, hk => by
    simp only [wireFields] at h
    split at h
    · cases h
    · split at h
      · cases h
      · rename_i _ d hd _ qs hq
        injection h with h; subst h
        simp only [propNames, List.mem_cons, not_or] at hk
        simp only [Props.find, find_none k fs qs hq hk.2, if_neg hk.1]

theorem json_name (f : FieldInfo) (tag : Tag) (h : parseTag f = some tag) (hs : tag.skip = false) : tag.json = propName f := by
  unfold parseTag at h
  unfold propName
  split at h
  · injection h with h; subst h; cases hs
  · simp only at h
    split at h
    · injection h with h; subst h; rfl
    · split at h
      · injection h with h; subst h; rfl
      · cases h

/-- Nil values are written as null. -/
theorem nil_null (O : Order) : ∀ (t : Ty) (v : Val X t) (n : Node X), isNilVal t v → marshal O t v = .ok n → n = .nil
  | .any, v, n, hn, h => by
    simp only [isNilVal] at hn
    subst hn
    simp only [marshal, Any.marshal] at h
    injection h with h; exact h.symm
  | .node, v, n, hn, h => by
    simp only [isNilVal] at hn
    rcases hn with rfl | rfl
    · simp only [marshal] at h; injection h with h; exact h.symm
    · simp only [marshal] at h
      have : marshalNode (.nil : Node X) = .ok .nil := rfl
      rw [this] at h; injection h with h; exact h.symm
  | .iface, v, n, hn, h => by simp only [marshal] at h; injection h with h; exact h.symm
  | .ptr t, v, n, hn, h => by
    match v, hn, h with
    | none, hn, h =>
      simp only [marshal] at h
      split at h
      · cases h
      · injection h with h; exact h.symm
    | some x, hn, h =>
      simp only [isNilVal] at hn
      simp only [marshal] at h
      rcases ptrFix_ok t _ n h with h | ⟨y, hy, hm, ht⟩
      · exact nil_null O t x n hn h
      · subst ht; simp only [isNilVal] at hn
  | .slice t, v, n, hn, h => by
    simp only [isNilVal] at hn
    subst hn
    simp only [marshal] at h; injection h with h; exact h.symm
  | .map k t, v, n, hn, h => by
    simp only [isNilVal] at hn
    subst hn
    simp only [marshal] at h; injection h with h; exact h.symm
  | .bool, v, n, hn, _ | .int _, v, n, hn, _ | .uint _, v, n, hn, _ | .float64, v, n, hn, _ | .float32, v, n, hn, _ | .string, v, n, hn, _ | .time, v, n, hn, _
  | .encTime, v, n, hn, _ | .encDur, v, n, hn, _ | .func, v, n, hn, _ | .chan, v, n, hn, _ | .array _ _, v, n, hn, _ | .struct _, v, n, hn, _ => by simp only [isNilVal] at hn

mutual
theorem written (O : Order) : ∀ (t : Ty) (v : Val X t) (d : Doc) (n : Node X), wireDoc t = some d → Plain t v → marshal O t v = .ok n → Conforms d n
  | .bool, v, d, n, hd, _, h => by simp only [wireDoc] at hd; injection hd with hd; subst hd; simp only [marshal] at h; injection h with h; subst h; exact .leaf rfl
  | .int w, v, d, n, hd, _, h => by simp only [wireDoc] at hd; injection hd with hd; subst hd; simp only [marshal] at h; injection h with h; subst h; exact .leaf rfl
  | .uint w, v, d, n, hd, _, h => by simp only [wireDoc] at hd; injection hd with hd; subst hd; simp only [marshal] at h; injection h with h; subst h; exact .leaf rfl
  | .float64, v, d, n, hd, _, h => by simp only [wireDoc] at hd; injection hd with hd; subst hd; simp only [marshal] at h; injection h with h; subst h; exact .leaf rfl
  | .float32, v, d, n, hd, _, h => by simp only [wireDoc] at hd; injection hd with hd; subst hd; simp only [marshal] at h; injection h with h; subst h; exact .leaf rfl
  | .string, v, d, n, hd, _, h => by simp only [wireDoc] at hd; injection hd with hd; subst hd; simp only [marshal] at h; injection h with h; subst h; exact .leaf rfl
  | .any, v, d, n, hd, hp, h => by simp only [Plain] at hp
  | .node, v, d, n, hd, hp, h => by simp only [Plain] at hp
  | .iface, v, d, n, hd, hp, h => by simp only [Plain] at hp
  | .time, v, d, n, hd, _, h => by simp only [wireDoc] at hd; injection hd with hd; subst hd; simp only [marshal] at h; injection h with h; subst h; exact .leaf rfl
  | .encTime, v, d, n, hd, _, h => by simp only [wireDoc] at hd; injection hd with hd; subst hd; simp only [marshal] at h; injection h with h; subst h; exact .leaf rfl
  | .encDur, v, d, n, hd, _, h => by simp only [wireDoc] at hd; injection hd with hd; subst hd; simp only [marshal] at h; injection h with h; subst h; exact .leaf rfl
  | .func, v, d, n, hd, hp, h => by simp only [wireDoc] at hd; cases hd
  | .chan, v, d, n, hd, hp, h => by simp only [wireDoc] at hd; cases hd
  | .ptr t, v, d, n, hd, hp, h => by
    match v, hp, h with
    | none, hp, h => simp only [Plain] at hp
    | some x, hp, h =>
      simp only [Plain] at hp
      simp only [wireDoc] at hd
      simp only [marshal] at h
      rcases ptrFix_ok t _ n h with h | ⟨y, hy, hm, ht⟩
      · exact written O t x d n hd hp h
      · subst ht
        simp only [marshal] at hy
        injection hy with hy; subst hy
        have hm := (marshalNode_time (X := X) x).symm.trans hm
        injection hm with hm; subst hm
        simp only [wireDoc] at hd; injection hd with hd; subst hd
        exact .leaf rfl
  | .slice t, v, d, n, hd, hp, h => by
    match v, hp, h with
    | none, hp, h => simp only [Plain] at hp; exact hp.2.elim
    | some l, hp, h =>
      simp only [Plain] at hp
      simp only [wireDoc, hp.1, Bool.false_eq_true, if_false, Option.map_eq_some_iff] at hd
      obtain ⟨d', hd', rfl⟩ := hd
      simp only [marshal] at h
      obtain ⟨ns, hns, h⟩ := bind_ok h
      injection h with h; subst h
      refine .array fun n hn => ?_
      obtain ⟨x, hx, hm⟩ := mapRes_mem _ _ _ hns n hn
      exact written O t x d' n hd' (hp.2 x hx) hm
  | .array k t, v, d, n, hd, hp, h => by
    obtain ⟨l, hl⟩ := v
    simp only [Plain] at hp
    simp only [wireDoc, Option.map_eq_some_iff] at hd
    obtain ⟨d', hd', rfl⟩ := hd
    simp only [marshal] at h
    obtain ⟨ns, hns, h⟩ := bind_ok h
    injection h with h; subst h
    refine .array fun n hn => ?_
    obtain ⟨x, hx, hm⟩ := mapRes_mem _ _ _ hns n hn
    exact written O t x d' n hd' (hp x hx) hm
  | .map k t, v, d, n, hd, hp, h => by
    match v, hp, h with
    | none, hp, h => simp only [Plain] at hp
    | some m, hp, h =>
      simp only [Plain] at hp
      simp only [wireDoc, Option.map_eq_some_iff] at hd
      obtain ⟨d', hd', rfl⟩ := hd
      simp only [marshal] at h
      obtain ⟨ns, hns, h⟩ := bind_ok h
      injection h with h; subst h
      refine .map fun e he => ?_
      obtain ⟨x, hx, hm⟩ := mapRes_mem _ _ _ hns e (mem_ofEntries _ _ he)
      obtain ⟨y, hy, hm⟩ := bind_ok hm
      split at hm
      · cases hm
      · injection hm with hm; subst hm
        exact written O t x.2 d' y hd' (hp x ((O.isPerm m).mem_iff.1 hx)) hy
  | .struct fs, v, d, n, hd, hp, h => by
    simp only [Plain] at hp
    simp only [wireDoc, Option.map_eq_some_iff] at hd
    obtain ⟨ps, hps, rfl⟩ := hd
    simp only [marshal] at h
    obtain ⟨l, hl, h⟩ := bind_ok h
    injection h with h; subst h
    have := writtenFields O fs v ps l hps hp.1 hp.2 hl
    exact .object (fun p hp => (this p hp).1) (fun p hp => (this p hp).2)
theorem writtenFields (O : Order) : ∀ (fs : Fields) (v : FVals X fs) (ps : Props) (l : List ((Str × Str) × Node X)), wireFields fs = some ps → (propNames fs).Nodup →
    PlainFields fs v → marshalFields O fs v = .ok l → ∀ p ∈ l, ps.find p.1.2 ≠ none ∧ ∀ d, ps.find p.1.2 = some d → Conforms d p.2
  | .nil, v, ps, l, _, _, _, h => by simp only [marshalFields] at h; injection h with h; subst h; simp
  | .cons f t fs, (v, vs), ps, l, hd, hn, hp, h => by
    simp only [wireFields] at hd
    split at hd
    · cases hd
    · split at hd
      · cases hd
      · rename_i _ d hd1 _ qs hq
        injection hd with hd; subst hd
        simp only [propNames, List.nodup_cons] at hn
        simp only [PlainFields] at hp
        have tail : ∀ l', marshalFields O fs vs = .ok l' → ∀ p ∈ l', (Props.cons (propName f) d qs).find p.1.2 ≠ none ∧
            ∀ d', (Props.cons (propName f) d qs).find p.1.2 = some d' → Conforms d' p.2 := by
          intro l' hl' p hpm
          obtain ⟨h1, h2⟩ := writtenFields O fs vs qs l' hq hn.2 hp.2 hl' p hpm
          cases hf : qs.find p.1.2 with
          | none => exact absurd hf h1
          | some d0 =>
            simp only [Props.find, hf]
            refine ⟨by simp, ?_⟩
            intro d' hd'
            injection hd' with hd'; subst hd'
            exact h2 _ hf
        simp only [marshalFields] at h
        by_cases hx : f.exported = true
        · rw [if_pos hx] at h
          cases htag : parseTag f with
          | none => rw [htag] at h; cases h
          | some tag =>
            simp only [htag] at h
            by_cases hs : tag.skip = true
            · rw [if_pos hs] at h; exact tail l h
            · rw [if_neg hs] at h
              have hs : tag.skip = false := by simpa using hs
              obtain ⟨n, hm, h⟩ := bind_ok h
              obtain ⟨l', hl', h⟩ := bind_ok h
              injection h with h
              by_cases ho : (tag.omitEmpty && emptyNode n) = true
              · rw [if_pos ho] at h; subst h; exact tail l' hl'
              · rw [if_neg ho] at h
                subst h
                intro p hpm
                rcases List.mem_cons.1 hpm with rfl | hpm
                · have hname := json_name f tag htag hs
                  simp only
                  rw [hname]
                  have hnone := find_none (propName f) fs qs hq hn.1
                  simp only [Props.find, hnone, if_true]
                  refine ⟨by simp, ?_⟩
                  intro d' hd'
                  injection hd' with hd'; subst hd'
                  rcases hp.1 with h1 | h1 | ⟨tag', h1, h2, h3⟩ | h1
                  · rw [hx] at h1; cases h1
                  · have : tag.skip = true := by
                      unfold parseTag at htag
                      rw [if_pos h1] at htag
                      injection htag with htag; subst htag; rfl
                    rw [this] at hs; cases hs
                  · rw [h1] at htag; injection htag with htag; subst htag
                    exact absurd (by rw [h2, nil_null O t v n h3 hm]; rfl) ho
                  · exact written O t v d n hd1 h1 hm
                · exact tail l' hl' p hpm
        · rw [if_neg hx] at h
          exact tail l h
end

/-- **C128.** What is written for a value fits the schema of its type, if it holds no `[]byte`, no interface, and nothing nil that is not omitted, and the properties are told apart
by their names. -/
theorem C128_written_partial (O : Order) (t : Ty) (v : Val X t) (d : Doc) (n : Node X) (hd : wireDoc t = some d) (hp : Plain t v) (hm : marshal O t v = .ok n) : Conforms d n :=
  written O t v d n hd hp hm

/-- A struct with a name, a list of numbers, and a pointer that is omitted. -/
def exFields : Fields := .cons { name := lit "Name", tag := lit "name" } .string (.cons { name := lit "Ages" } (.slice (.int .w64)) (.cons { name := lit "P", tag := lit "p,omitempty" } (.ptr .string) .nil))

example (O : Order) : wireDoc (.struct exFields) = some (.object (.cons (lit "name") (.leaf (lit "string")) (.cons (lit "Ages") (.array (.leaf (lit "number"))) (.cons (lit "p") (.leaf (lit "string")) .nil)))) ∧
    Plain (X := X) (.struct exFields) ((lit "a", (some [(1#64 : BitVec 64), (2#64 : BitVec 64)], (none, ()))) : FVals X exFields) ∧
    marshal (X := X) O (.struct exFields) ((lit "a", (some [(1#64 : BitVec 64), (2#64 : BitVec 64)], (none, ()))) : FVals X exFields) =
      .ok (.pairs [((lit "Name", lit "name"), .str (lit "a")), ((lit "Ages", lit "Ages"), .list [.int 1, .int 2])]) := by
  refine ⟨rfl, ?_, rfl⟩
  simp only [Plain, exFields, PlainFields]
  refine ⟨by decide, .inr (.inr (.inr trivial)), .inr (.inr (.inr ⟨rfl, fun _ _ => trivial⟩)), .inr (.inr (.inl ⟨_, rfl, rfl, trivial⟩)), trivial⟩

theorem lit_ne (n : Node X) (ty : Str) (h : jsonType n ≠ ty) : ¬ Conforms (.leaf ty) n := by
  intro hc
  cases hc with
  | leaf h' => exact h h'

/-- **C128, violated.** A `[]byte` is documented as a string, but is written as an array of numbers; and a string is not accepted for it. -/
theorem C128_bytes_violated (O : Order) (H : Handler X) (v : Val X (.slice (.uint .w8))) (s : Str) (old : Val X (.slice (.uint .w8))) :
    wireDoc (.slice (.uint .w8)) = some (.leaf (lit "string")) ∧
    (∀ n : Node X, marshal O (.slice (.uint .w8)) v = .ok n → ¬ Conforms (.leaf (lit "string")) n) ∧
    (unmarshal H O (.slice (.uint .w8)) (.str s : Node X) old).st = .err := by
  refine ⟨rfl, ?_, rfl⟩
  intro n h
  match v, h with
  | none, h =>
    simp only [marshal] at h
    injection h with h; subst h
    exact lit_ne _ _ (by show lit "null" ≠ _; decide)
  | some l, h =>
    simp only [marshal] at h
    obtain ⟨ns, hns, h⟩ := bind_ok h
    injection h with h; subst h
    exact lit_ne _ _ (by show lit "array" ≠ _; decide)

/-- **C128, violated.** Nil slices, maps and pointers are written as null, and what an interface holds may be anything. -/
theorem C128_null_violated (O : Order) : wireDoc (.slice .string) = some (.array (.leaf (lit "string"))) ∧
    marshal O (.slice .string) (none : Option (List Str)) = .ok (.nil : Node X) ∧ ¬ Conforms (.array (.leaf (lit "string"))) (.nil : Node X) ∧
    wireDoc .any = some (.leaf (lit "object")) ∧ marshal O .any (.bool true : Any X) = .ok (.bool true) ∧ ¬ Conforms (.leaf (lit "object")) (.bool true : Node X) := by
  refine ⟨rfl, rfl, ?_, rfl, rfl, lit_ne _ _ (by show lit "boolean" ≠ _; decide)⟩
  intro h; cases h

end Verif.Openapi.Wire

import Verif.Enc.SafetyProps
/-!
# Values of the wrong kind are refused (C145)
-/
set_option autoImplicit false
namespace Verif.Enc
open Verif.Strconv
variable {X : Ext}

/-! ### specification -/

/-- The kinds of JSON values (RFC 8259, 3). -/
inductive JKind where
  | null | bool | number | text | list | object
deriving DecidableEq

/-- The kind of a node, for those that JSON texts are read as. -/
def JKind.of : Node X → Option JKind
  | .nil => some .null
  | .bool _ => some .bool
  | .digits _ => some .number
  | .str _ => some .text
  | .list _ => some .list
  | .map _ => some .object
  | _ => none

/-- The kinds a variable can be set from at all. -/
def Ty.takes : Ty → JKind → Bool
  | .encTime, .null => false
  | _, .null => true
  | .bool, k => k = .bool
  | .int _, k | .uint _, k | .float64, k | .float32, k => k = .number
  | .string, k => k = .text || k = .number
  | .any, _ | .node, _ => true
  | .time, k | .encTime, k | .encDur, k => k = .text
  | .func, _ | .chan, _ | .iface, _ => false
  | .ptr t, k => t.takes k
  | .slice _, k | .array _ _, k => k = .list
  | .map _ _, k | .struct _, k => k = .object

/-- What is below the pointers. -/
def Ty.pointee : Ty → Ty
  | .ptr t => t.pointee
  | t => t

/-! ### C145 -/

theorem refused (H : Handler X) (O : Order) (k : JKind) (n : Node X) (hk : JKind.of n = some k) (he : n.encodable = true) : ∀ (t : Ty) (old : Val X t),
    t.pointee ≠ .iface → t.takes k = false → (unmarshal H O t n old).st = .err ∧ (unmarshal H O t n old).calls = [] ∧
      ((∀ u, t ≠ .ptr u) → (unmarshal H O t n old).val = old) := by
  intro t
  have hp := noPanics n he
  induction t using Ty.pointee.induct with
  | case1 t ih =>
    intro old hi ht
    have h0 : k ≠ .null := by intro e; subst e; simp [Ty.takes] at ht
    have hb : t.takes k = false := by
      cases k <;> first | exact absurd rfl h0 | simpa [Ty.takes] using ht
    obtain ⟨h1, h2, -⟩ := ih (zero X t) hi hb
    cases n <;> simp only [JKind.of] at hk <;> first | cases hk | skip
    · exact absurd rfl h0
    all_goals exact ⟨by simpa only [unmarshal, uPtr] using h1, by simpa only [unmarshal, uPtr] using h2, fun h => absurd rfl (h t)⟩
  | case2 t h =>
    intro old hi ht
    cases n <;> simp only [JKind.of] at hk <;> (try cases hk) <;> cases t <;> simp [Ty.takes] at ht <;>
      simp_all [unmarshal, uBool, numOut, uString, uTime, uEncTime, uEncDur, uOpaque, uSlice, uArray, uMap, uObject, Node.int64, Node.uint64, Node.float64, Node.numStr, Node.jsonString,
        Out.mk', Ty.pointee]

/-- C145: a JSON value of a kind the variable can not be set from gives an error, the callback is not asked, and the variable keeps what it held, unless it is a pointer. -/
theorem C145_refused_partial (H : Handler X) (O : Order) (s : Str) (n : Node X) (hd : decode s = some (some n)) (k : JKind) (hk : JKind.of n = some k) (t : Ty) (old : Val X t)
    (hi : t.pointee ≠ .iface) (ht : t.takes k = false) :
    (unmarshalJSON H O t s old).st = .err ∧ (unmarshalJSON H O t s old).calls = [] ∧ ((∀ u, t ≠ .ptr u) → (unmarshalJSON H O t s old).val = old) := by
  have := refused H O k n hk (C73_decoded s n hd).2.2.1 t old hi ht
  simpa only [unmarshalJSON, hd, Handler.unmarshal, Option.getD] using this

/-- Every JSON value is of one of the kinds. -/
theorem C145_kind (s : Str) (n : Node X) (hd : decode s = some (some n)) : ∃ k, JKind.of n = some k := by
  have := (C73_decoded s n hd).1
  cases n <;> first | exact ⟨_, rfl⟩ | simp [Node.plain] at this

/-- C145: what is no JSON text is an error for every type, also one that takes anything, and the variable is kept. -/
theorem C145_malformed (H : Handler X) (O : Order) (t : Ty) (s : Str) (old : Val X t) (hd : decode (X := X) s = none) : unmarshalJSON H O t s old = .mk' old .err := by
  simp only [unmarshalJSON, hd]

theorem uEntries_key {α : Type} (k : KTy) (f : Node X → Out X α) (hok : ∀ n, (f n).st = .ok) : ∀ (l : List (Str × Node X)) (acc : List (Str × α)),
    ((∃ p ∈ l, normKey k p.1 = none) → (uEntries k f l acc).st = .err) ∧ ((∀ p ∈ l, normKey k p.1 ≠ none) → (uEntries k f l acc).st = .ok)
  | [], acc => ⟨fun ⟨_, h, _⟩ => (List.not_mem_nil h).elim, fun _ => rfl⟩
  | (key, n) :: l, acc => by
    simp only [uEntries]
    cases hk : normKey k key with
    | none => exact ⟨fun _ => rfl, fun h => absurd hk (h _ (List.mem_cons_self ..))⟩
    | some key' =>
      simp only [hok n]
      have ih := uEntries_key k f hok l (insertKey key' (f n).val acc)
      refine ⟨?_, fun h => ih.2 fun p hp => h p (List.mem_cons_of_mem _ hp)⟩
      rintro ⟨p, hp, hn⟩
      rcases List.mem_cons.1 hp with rfl | hp
      · rw [hk] at hn; cases hn
      · exact ih.1 ⟨p, hp, hn⟩

/-- A key that a map with keys of this type can not have: those of integers are decimal numbers of 64 bits, keys that are neither strings nor integers are never read. -/
def KTy.Bad : KTy → Str → Prop
  | .str, _ => False
  | .int _, s => parseInt s = none
  | .uint _, s => parseUint s = none
  | .other, _ => True

theorem normKey_none (k : KTy) (s : Str) : normKey k s = none ↔ k.Bad s := by
  cases k <;> simp [normKey, KTy.Bad]

/-- C145: an object is read into a map with values of type `any` exactly if all its keys are good. Otherwise it is an error, in whatever order the entries are visited, and the variable is kept. -/
theorem C145_keys (H : Handler X) (O : Order) (k : KTy) (m : List (Str × Node X)) (old : Val X (.map k .any)) :
    ((∃ p ∈ m, k.Bad p.1) → (unmarshal H O (.map k .any) (.map m) old).st = .err ∧ (unmarshal H O (.map k .any) (.map m) old).val = old) ∧
    ((∀ p ∈ m, ¬ k.Bad p.1) → (unmarshal H O (.map k .any) (.map m) old).st = .ok) := by
  have h := uEntries_key (α := Val X .any) k (fun n => unmarshal H O .any n (zero X .any)) (fun n => by simp only [unmarshal]; rfl) (O.perm m) []
  have e : unmarshal H O (.map k .any) (.map m) old = (uEntries k (fun n => unmarshal H O .any n (zero X .any)) (O.perm m) []).assign some old := by simp only [unmarshal, uMap]; rfl
  rw [e]
  have hm : ∀ p, p ∈ O.perm m ↔ p ∈ m := fun p => (O.isPerm m).mem_iff
  constructor
  · rintro ⟨p, hp, hb⟩
    have := h.1 ⟨p, (hm p).2 hp, (normKey_none k p.1).2 hb⟩
    simp [Out.assign, this]
  · intro hg
    have := h.2 fun p hp hb => hg p ((hm p).1 hp) ((normKey_none k p.1).1 hb)
    simp only [Out.assign, this]

/-- C145, violated: a pointer is set to a new zero value before its target is refused: what it pointed to is lost. -/
theorem C145_pointer_violated (H : Handler X) (O : Order) (t : Ty) (old : Val X (.ptr t)) (s : Str) (n : Node X) (hd : decode s = some (some n)) (k : JKind) (hk : JKind.of n = some k)
    (hi : t.pointee ≠ .iface) (hp : ∀ u, t ≠ .ptr u) (ht : t.takes k = false) (h0 : k ≠ .null) :
    (unmarshalJSON H O (.ptr t) s old).st = .err ∧ (unmarshalJSON H O (.ptr t) s old).val = some (zero X t) := by
  have := refused H O k n hk (C73_decoded s n hd).2.2.1 t (zero X t) hi ht
  simp only [unmarshalJSON, hd, Handler.unmarshal, Option.getD]
  cases n <;> simp only [JKind.of] at hk <;> first | cases hk | skip
  · exact absurd rfl h0
  all_goals exact ⟨by simpa only [unmarshal, uPtr] using this.1, by simp only [unmarshal, uPtr]; rw [this.2.2 hp]⟩

/-- C145: of what a program makes itself an interface with methods refuses times and durations properly. -/
theorem C145_interface_partial (H : Handler X) (O : Order) (t : X.T) (d : Int) (old : Val X .iface) :
    (unmarshal H O .iface (.time t) old).st = .err ∧ (unmarshal H O .iface (.dur d) old).st = .err ∧ (unmarshal H O .iface .nil old).st = .ok := ⟨by simp only [unmarshal, uIface]; rfl, by simp only [unmarshal, uIface]; rfl, by simp only [unmarshal, uIface]; rfl⟩

/-- C145, violated: an interface with methods is no error but a panic. -/
theorem C145_interface_violated (H : Handler X) (O : Order) (s : Str) (n : Node X) (hd : decode s = some (some n)) (k : JKind) (hk : JKind.of n = some k) (h0 : k ≠ .null) (old : Unit) :
    (unmarshalJSON H O .iface s (old : Val X .iface)).st = .panic := by
  simp only [unmarshalJSON, hd, Handler.unmarshal, Option.getD, unmarshal]
  cases n <;> simp only [JKind.of] at hk <;> first | cases hk | skip
  · exact absurd rfl h0
  all_goals rfl

/-- C145: `null` is taken by every type but `enc.Time`. -/
theorem C145_null (H : Handler X) (O : Order) (t : Ty) (old : Val X t) : (unmarshal H O t .nil old).st = if t.takes .null then .ok else .err := by
  cases t <;> simp only [unmarshal, Ty.takes] <;> rfl

/-- Types below whose pointers there is neither a float, a time or duration, an array, a struct nor an interface with methods. -/
def Ty.simple (t : Ty) : Bool :=
  match t.pointee with
  | .bool | .int _ | .uint _ | .string | .any | .node | .func | .chan | .slice _ | .map _ _ => true
  | _ => false

/-- Texts, maps to slices and pointers to them are; times, floats and structs are not. -/
example : Ty.simple (.ptr (.map .str (.slice .float64))) = true ∧ Ty.simple .string = true ∧ Ty.simple .float64 = false := by decide

theorem taken (H : Handler X) (O : Order) (k : JKind) : ∀ (t : Ty), t.simple = true → t.takes k = true → ∃ n : Node X, JKind.of n = some k ∧ n.encodable = true ∧ ∀ old : Val X t, (unmarshal H O t n old).st = .ok := by
  intro t hs ht
  by_cases h0 : k = .null
  · subst h0
    exact ⟨.nil, rfl, rfl, fun old => by rw [C145_null, if_pos ht]⟩
  induction t using Ty.pointee.induct with
  | case1 t ih =>
    have hb : t.takes k = true := by cases k <;> first | exact absurd rfl h0 | simpa [Ty.takes] using ht
    obtain ⟨n, h1, h2, h3⟩ := ih hs hb
    refine ⟨n, h1, h2, fun old => ?_⟩
    cases n <;> simp only [JKind.of] at h1 <;> first | cases h1 | skip
    · exact absurd rfl h0
    all_goals simpa only [unmarshal, uPtr] using h3 (zero X t)
  | case2 t h =>
    cases k with
    | null => exact absurd rfl h0
    | bool =>
      refine ⟨.bool true, rfl, rfl, fun old => ?_⟩
      cases t <;> simp [Ty.takes] at ht <;> first | exact absurd rfl (h _) | (simp only [unmarshal] <;> rfl)
    | number =>
      refine ⟨.digits (lit "0"), rfl, rfl, fun old => ?_⟩
      cases t <;> simp [Ty.takes] at ht <;> first | exact absurd rfl (h _) | (simp [Ty.simple, Ty.pointee] at hs; done) | (simp only [unmarshal] <;> rfl)
    | text =>
      refine ⟨.str [], rfl, rfl, fun old => ?_⟩
      cases t <;> simp [Ty.takes] at ht <;> first | exact absurd rfl (h _) | (simp [Ty.simple, Ty.pointee] at hs; done) | (simp only [unmarshal] <;> rfl)
    | list =>
      refine ⟨.list [], rfl, rfl, fun old => ?_⟩
      cases t <;> simp [Ty.takes] at ht <;> first | exact absurd rfl (h _) | (simp [Ty.simple, Ty.pointee] at hs; done) | (simp only [unmarshal] <;> rfl)
    | object =>
      refine ⟨.map [], rfl, rfl, fun old => ?_⟩
      have hp : ∀ {α : Type}, O.perm ([] : List α) = [] := List.Perm.eq_nil (O.isPerm _)
      cases t <;> simp [Ty.takes] at ht <;> first | exact absurd rfl (h _) | (simp [Ty.simple, Ty.pointee] at hs; done) | (simp only [unmarshal, uMap, hp] <;> rfl)

/-- C145: and nothing else is refused for its kind: of each other kind something is taken. -/
theorem C145_taken (H : Handler X) (O : Order) (k : JKind) (t : Ty) (hs : t.simple = true) :
    t.takes k = true ↔ ∃ n : Node X, JKind.of n = some k ∧ n.encodable = true ∧ ∀ old : Val X t, (unmarshal H O t n old).st = .ok := by
  refine ⟨taken H O k t hs, fun ⟨n, h1, h2, h3⟩ => ?_⟩
  cases hc : t.takes k with
  | true => rfl
  | false =>
    have hi : t.pointee ≠ .iface := by intro e; simp [Ty.simple, e] at hs
    have := (refused H O k n h1 h2 t (zero X t) hi hc).1
    rw [h3] at this
    cases this

/-- A list for a number, and for a pointer that held 7; a map of integers with a key that is no number. -/
example : let r : Out XJ (BitVec 8) := unmarshalJSON (X := XJ) ⟨none⟩ sortedOrder (.int .w8) (lit "[5]") (7 : BitVec 8)
    (r.st, r.val) = (.err, 7) := by decide +kernel

example : let r : Out XJ (Option (BitVec 8)) := unmarshalJSON (X := XJ) ⟨none⟩ sortedOrder (.ptr (.int .w8)) (lit "[5]") (some (7 : BitVec 8))
    (r.st, r.val) = (.err, some 0) := by decide +kernel

example : (unmarshalJSON (X := XJ) ⟨none⟩ sortedOrder (.map (.int .w8) .any) (lit "{\"1\":true,\"a\":1}") none).st = .err ∧
    (unmarshalJSON (X := XJ) ⟨none⟩ sortedOrder (.map (.int .w8) .any) (lit "{\"1\":true,\"-2\":1}") none).st = .ok ∧
    (unmarshalJSON (X := XJ) ⟨none⟩ sortedOrder (.map (.uint .w8) .any) (lit "{\"1\":true,\"-2\":1}") none).st = .err := by decide +kernel

end Verif.Enc

import Verif.Sync.MapEnc
import Verif.Sync.MapProps
import Verif.Enc.TypedProps
/-!
# A `sync.Map` crosses the wire (C125)
-/
set_option autoImplicit false
namespace Verif.Sync
open Verif.Enc Verif.Strconv

variable {X : Ext} {t : Ty}

theorem iterErr_insert (pairs m : List (Str × Val X t)) :
    iterErr (E := Unit) (fun (m : List (Str × Val X t)) k v => (insertKey k v m, none)) pairs m = (pairs.foldl (fun m e => insertKey e.1 e.2 m) m, none) := by
  induction pairs generalizing m with
  | nil => rfl
  | cons p pairs ih => simp [iterErr, ih]

theorem storeV_rel {K V : Type} [DecidableEq K] {i : Iface V} {m : SMap K V} {a : K → Option V} (h : MRel i m a) (k : K) (v : V) :
    MRel i (m.storeV i k v) (put a k (some v)) := by
  have := (mrun_spec [MOp.store k v] h).2
  simpa [SMap.run, SMap.step, specRun, specStep] using this

theorem storeAll_rel (l : List (Str × Val X t)) : ∀ {m : SMap Str (Val X t)} {a : Str → Option (Val X t)}, MRel (ifaceOf X t) m a →
    MRel (ifaceOf X t) (storeAll l m) (l.foldl (fun a e => put a e.1 (some e.2)) a) := by
  induction l with
  | nil => intro m a h; exact h
  | cons e l ih => intro m a h; exact ih (storeV_rel h e.1 e.2)

/-- The bindings of `a`, and those of `b` for other keys. -/
def over {K V : Type} (a b : K → Option V) : K → Option V := fun k => match a k with | some v => some v | none => b k

theorem foldl_put {V : Type} (l : List (Str × V)) (a : Str → Option V) (hl : ∀ k v, (k, v) ∈ l ↔ a k = some v) (b : Str → Option V) :
    l.foldl (fun a e => put a e.1 (some e.2)) b = over a b := by
  have key : ∀ (l : List (Str × V)) (b : Str → Option V) (k : Str), (∀ e ∈ l, a e.1 = some e.2) →
      l.foldl (fun a e => put a e.1 (some e.2)) b k = if k ∈ l.map (·.1) then a k else b k := by
    intro l
    induction l with
    | nil => intro b k _; rfl
    | cons e l ih =>
      intro b k h
      rw [List.foldl_cons, ih _ _ fun e he => h e (by simp [he])]
      by_cases h1 : k ∈ l.map (·.1)
      · have : k ∈ (e :: l).map (·.1) := by simp only [List.map_cons, List.mem_cons]; exact Or.inr h1
        rw [if_pos h1, if_pos this]
      · rw [if_neg h1]
        by_cases h2 : k = e.1
        · have : k ∈ (e :: l).map (·.1) := by simp [h2]
          rw [if_pos this, h2, h e (by simp)]
          simp [put]
        · have : k ∉ (e :: l).map (·.1) := by
            simp only [List.map_cons, List.mem_cons, not_or]; exact ⟨h2, h1⟩
          rw [if_neg this]
          simp [put, h2]
  funext k
  rw [key l b k fun e he => (hl e.1 e.2).1 he]
  unfold over
  cases ha : a k with
  | some v =>
    have : k ∈ l.map (·.1) := List.mem_map.2 ⟨(k, v), (hl k v).2 ha, rfl⟩
    rw [if_pos this]
  | none =>
    have : k ∉ l.map (·.1) := by
      intro hm
      obtain ⟨e, he, rfl⟩ := List.mem_map.1 hm
      rw [(hl e.1 e.2).1 he] at ha; cases ha
    rw [if_neg this]

theorem nodup_mem {V : Type} (l : List (Str × V)) (a : Str → Option V) (hl : Lists l a) : ∀ k v, (k, v) ∈ ofEntries l ↔ a k = some v := by
  intro k v
  have hs := sorted_ofEntries l
  have h1 : lookupKey k (ofEntries l) = some v ↔ a k = some v := by
    rw [lookup_ofEntries, lookup_reverse_nodup _ _ hl.1]
    constructor
    · intro h; exact (hl.2 k v).1 (mem_of_lookup h)
    · intro h
      obtain ⟨v', hv'⟩ := lookup_isSome_of_mem ((hl.2 k v).2 h)
      rw [hv', ← (hl.2 k v').1 (mem_of_lookup hv')]
      exact h
  exact ⟨fun h => h1.1 (lookup_of_mem hs h), fun h => mem_of_lookup (h1.2 h)⟩

/-- The plain map that a history of operations makes. -/
abbrev content (X : Ext) (t : Ty) (ops : List (MOp Str (Val X t))) : Str → Option (Val X t) := (specRun (zero X t) (fun _ => none) ops).1

/-- **C125.** What one map marshals to, another takes: from then on it acts like a plain map with the entries of the first, and its own under other keys; if the keys and values
survive a round trip and no value is a nil interface. Whatever the histories of the two, and the order in which maps are visited. -/
theorem C125_round_partial (hX : Laws X) (O O' : Order) (k : KTy) (ops into later : List (MOp Str (Val X t))) (order : SMap Str (Val X t))
    (hp : order.Perm (SMap.run (ifaceOf X t) ([] : SMap Str (Val X t)) ops).1)
    (hv : ∀ key v, content X t ops key = some v → normKey k key = some key ∧ Faithful false t v ∧ isNilIface t v = false) :
    ∃ n, marshalMap O k t order = .ok n ∧
      (unmarshalMap O' k t n (SMap.run (ifaceOf X t) ([] : SMap Str (Val X t)) into).1).2 = .ok ∧
      (SMap.run (ifaceOf X t) (unmarshalMap O' k t n (SMap.run (ifaceOf X t) ([] : SMap Str (Val X t)) into).1).1 later).2 =
        (specRun (zero X t) (over (content X t ops) (content X t into)) later).2 := by
  obtain ⟨pairs, hl, rfl⟩ := order_pairs (mrun_spec ops (rel_empty (ifaceOf X t))).2 hp fun key v h => (hv key v h).2.2
  have hmem := nodup_mem pairs _ hl
  have hto : toEntries (pairs.map fun p => (p.1, some p.2)) = .ok (ofEntries pairs) := by
    unfold toEntries
    rw [rangeErr_pairs, iterErr_insert]
    rfl
  have hf : Faithful false (.map k t) (some (ofEntries pairs) : Option (List (Str × Val X t))) := by
    simp only [Faithful]
    refine ⟨sorted_ofEntries pairs, ?_⟩
    intro e he
    have := hv e.1 e.2 ((hmem e.1 e.2).1 he)
    exact ⟨this.1, this.2.1⟩
  obtain ⟨n, h1, h2⟩ := C40_round_trip hX O O' ⟨none⟩ (.map k t) (some (ofEntries pairs) : Option (List (Str × Val X t))) hf
  have h2 : unmarshal ⟨none⟩ O' (.map k t) n (none : Option (List (Str × Val X t))) = .done (some (ofEntries pairs) : Option (List (Str × Val X t))) := h2
  have hu : unmarshalMap O' k t n (SMap.run (ifaceOf X t) ([] : SMap Str (Val X t)) into).1 =
      (storeAll (O'.perm (ofEntries pairs)) (SMap.run (ifaceOf X t) ([] : SMap Str (Val X t)) into).1, .ok) := by
    unfold unmarshalMap
    rw [h2]
    rfl
  refine ⟨n, ?_, ?_, ?_⟩
  · unfold marshalMap
    rw [hto]
    exact h1
  · rw [hu]
  · rw [hu]
    have hr := storeAll_rel (O'.perm (ofEntries pairs)) (mrun_spec into (rel_empty (ifaceOf X t))).2
    rw [foldl_put _ (content X t ops)] at hr
    · exact (mrun_spec later hr).1
    · intro k v
      rw [(O'.isPerm (ofEntries pairs)).mem_iff]
      exact hmem k v

/-- **C125.** If it can not be read, the map is as it was. -/
theorem C125_error_partial (O : Order) (k : KTy) (n : Node X) (m : SMap Str (Val X t)) (h : (unmarshalMap O k t n m).2 ≠ .ok) : (unmarshalMap O k t n m).1 = m := by
  unfold unmarshalMap at h ⊢
  simp only at h ⊢
  split
  · rename_i hs
    rw [hs] at h
    simp only at h
    split
    · rfl
    · rename_i hv
      rw [hv] at h
      exact absurd rfl h
  · rfl

/-- **C125.** It can be read if a plain map could; null is nothing to store. -/
theorem C125_status_partial (O : Order) (k : KTy) (n : Node X) (m : SMap Str (Val X t)) :
    (unmarshalMap O k t n m).2 = (unmarshal ⟨none⟩ O (.map k t) n (none : Option (List (Str × Val X t)))).st ∧ unmarshalMap O k t .nil m = (m, .ok) := by
  refine ⟨?_, rfl⟩
  unfold unmarshalMap
  simp only
  split
  · rename_i hs
    rw [hs]
    split <;> rfl
  · rfl

/-- **C125.** What is meant by a nil interface: an `any` or an `enc.Node` that holds nothing, or an interface with methods, which never holds anything here; values of other types are none, nil pointers, maps and
slices included. -/
theorem C125_interfaces (a : Any X) (n : Option (Node X)) (v : Val X t) :
    (isNilIface .any a = true ↔ a = .nil) ∧ (isNilIface .node n = true ↔ n = none) ∧ isNilIface (X := X) .iface () = true ∧
    (t ≠ .any → t ≠ .node → t ≠ .iface → isNilIface t v = false) := by
  refine ⟨?_, ?_, rfl, ?_⟩
  · cases a <;> simp [isNilIface]
  · cases n <;> simp [isNilIface]
  · intro h1 h2 h3
    cases t <;> first | rfl | exact absurd rfl h1 | exact absurd rfl h2 | exact absurd rfl h3

/-- **C125, violated.** A map that holds a nil interface can not be marshalled: it panics. -/
theorem C125_nil_violated (O : Order) (k : KTy) (ops : List (MOp Str (Val X t))) (order : SMap Str (Val X t))
    (hp : order.Perm (SMap.run (ifaceOf X t) ([] : SMap Str (Val X t)) ops).1) (key : Str) (v : Val X t) (hk : content X t ops key = some v) (hn : isNilIface t v = true) :
    marshalMap O k t order = .panic := by
  have h := (C16_nil_panics (σ := Unit) (ifaceOf X t) ops order hp key v hk hn (fun _ _ _ => ((), true)) (fun _ _ _ => rfl) ()).2
  have hne : ∀ (order : SMap Str (Val X t)) (a : Str → Option (Val X t)) (l : List (Str × Val X t)) (e : Panic),
      rangeErr (E := Unit) (fun (m : Str → Option (Val X t)) k v => (fun k' => if k' = k then some v else m k', none)) order a = .error e →
      ∃ e, rangeErr (E := Unit) (fun (m : List (Str × Val X t)) k v => (insertKey k v m, none)) order l = .error e := by
    intro order
    induction order with
    | nil => intro a l e h; cases h
    | cons p order ih =>
      intro a l e h
      obtain ⟨k, _ | v⟩ := p
      · exact ⟨.typeAssert, rfl⟩
      · exact ih _ (insertKey k v l) e h
  have h0 : ∃ e, rangeErr (E := Unit) (fun (m : Str → Option (Val X t)) k v => (fun k' => if k' = k then some v else m k', none)) order (fun _ => none) = .error e := by
    unfold toMap at h
    cases hr : rangeErr (E := Unit) (fun (m : Str → Option (Val X t)) k v => (fun k' => if k' = k then some v else m k', none)) order (fun _ => none) with
    | error e => exact ⟨e, rfl⟩
    | ok r => rw [hr] at h; cases h
  obtain ⟨e, he⟩ := h0
  obtain ⟨e', he'⟩ := hne order _ [] e he
  unfold marshalMap toEntries
  rw [he']
  rfl

/-- **C125, violated.** A map held by value is marshalled as an empty object, whatever it holds. -/
theorem C125_value_violated (O : Order) (inner : Ty) (v : Val X (structTy inner)) : marshal O (structTy inner) v = .ok (.pairs []) := by
  obtain ⟨a, b⟩ := v
  rfl

/-- A struct with one field. -/
def oneField : Ty := .struct (.cons { name := lit "A" } .string .nil)

/-- **C125, violated.** Fields that nothing takes are not reported to `UnhandledFields` inside a `sync.Map`, while they are inside a plain map. -/
theorem C125_unhandled_violated (O : Order) : ∃ n : Node XT,
    (unmarshal ⟨some fun _ _ => true⟩ O (.map .str oneField) n (none : Option (List (Str × Val XT oneField)))).st = .err ∧
    (unmarshalMap O .str oneField n ([] : SMap Str (Val XT oneField))).2 = .ok := by
  refine ⟨.map [(lit "k", .map [(lit "B", .bool true)])], ?_⟩
  have hp : ∀ {α : Type} (x : α), O.perm [x] = [x] := fun x => List.perm_singleton.1 (O.isPerm [x])
  constructor
  · simp only [unmarshal, uMap, hp]
    simp only [uEntries, normKey, oneField, unmarshal, uObject, uStruct, uFields, report, unknown, hp]
    rfl
  · simp only [unmarshalMap, unmarshal, uMap, hp]
    simp only [uEntries, normKey, oneField, unmarshal, uObject, uStruct, uFields, report, unknown, hp]
    rfl

/-- A map with two entries, and what another takes from it. -/
example : let m : SMap Str (Val XT .string) := [(lit "b", some (lit "2")), (lit "a", some (lit "1"))]
    marshalMap (X := XT) ⟨id, fun l => .refl l⟩ .str .string m = .ok (.map [(lit "a", .str (lit "1")), (lit "b", .str (lit "2"))]) := by rfl
example : (unmarshalMap (X := XT) ⟨id, fun l => .refl l⟩ .str .string (.map [(lit "a", .str (lit "1"))]) [(lit "a", some (lit "0")), (lit "c", some (lit "3"))]) =
    ([(lit "a", some (lit "1")), (lit "c", some (lit "3"))], .ok) := by rfl

end Verif.Sync

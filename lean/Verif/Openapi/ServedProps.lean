import Verif.Openapi.Served
import Verif.Ws.Wire
/-!
# What `/openapi.json` says is the documentation (C147)
-/
set_option autoImplicit false
namespace Verif.Openapi.Served
open Verif.Strconv Verif.Enc Verif.Api Verif.Openapi

section
variable {X : Ext}

/-! ### lemmas: nodes that can be written -/

/-- It can be written, and is not too deep. -/
def Fits (d : Nat) (n : Node X) : Prop := Verif.Enc.Good n ∧ n.depth ≤ d

theorem fits_mono {d e : Nat} {n : Node X} (h : Fits d n) (hl : d ≤ e) : Fits e n := ⟨h.1, Nat.le_trans h.2 hl⟩
theorem fits_str (s : Str) : Fits 0 (.str s : Node X) := ⟨⟨trivial, fun _ => rfl⟩, Nat.le_refl _⟩
theorem fits_bool (b : Bool) : Fits 0 (.bool b : Node X) := ⟨⟨trivial, fun _ => rfl⟩, Nat.le_refl _⟩
theorem fits_nil : Fits 0 (.nil : Node X) := ⟨⟨trivial, fun _ => rfl⟩, Nat.le_refl _⟩

theorem fits_list {d : Nat} (l : List (Node X)) (h : ∀ n ∈ l, Fits d n) : Fits (d + 1) (.list l) :=
  ⟨good_list l fun n hn => (h n hn).1, Nat.add_le_add_right ((Ws.listDepth_le l d).mpr fun n hn => (h n hn).2) 1⟩

theorem fits_map {d : Nat} (m : List (Str × Node X)) (hs : SortedKeys m) (h : ∀ e ∈ m, Fits d e.2) : Fits (d + 1) (.map m) :=
  ⟨good_map m hs fun n hn => (h n hn).1, Nat.add_le_add_right ((Ws.mapDepth_le m d).mpr fun n hn => (h n hn).2) 1⟩

theorem fits_pairs {d : Nat} (m : List ((Str × Str) × Node X)) (h : ∀ e ∈ m, Fits d e.2) : Fits (d + 1) (.pairs m) :=
  ⟨good_pairs m fun n hn => (h n hn).1, Nat.add_le_add_right ((Ws.pairsDepth_le m d).mpr fun n hn => (h n hn).2) 1⟩

/-! ### lemmas: structs -/

/-- A field of a struct and what it is marshalled to. -/
structure Row (X : Ext) where
  name : Str
  json : Str
  drop : Bool
  node : Node X

/-- The fields that are written. -/
def kept : List (Row X) → List ((Str × Str) × Node X)
  | [] => []
  | r :: l => if r.drop && emptyNode r.node then kept l else ((r.name, r.json), r.node) :: kept l

theorem mf_cons (O : Order) {f : FieldInfo} {t : Ty} {fs : Fields} {v : Val X t} {vs : FVals X fs} {n : Node X} {l : List (Row X)} (name json : Str) (drop : Bool)
    (ht : f.exported = true ∧ parseTag f = some ⟨name, json, drop, false⟩) (hm : marshal O t v = .ok n) (hl : marshalFields O fs vs = .ok (kept l)) :
    marshalFields O (.cons f t fs) (v, vs) = .ok (kept (⟨name, json, drop, n⟩ :: l)) := by
  simp only [marshalFields, ht.1, ht.2, if_true, hm, hl, Ws.bind_ok_eq, kept, Bool.false_eq_true, if_false]

/-- What a reader finds under a name. -/
def rowGet (l : List (Row X)) (k : Str) : Option (Node X) :=
  match l.find? fun r => r.json = k with
  | some r => if r.drop && emptyNode r.node then none else some r.node.norm
  | none => none

theorem kept_lookup (k : Str) : ∀ l : List (Row X), (l.map (·.json)).Nodup → lookupKey k (Node.pairsNorm (kept l)).reverse = rowGet l k := by
  intro l hn
  have hkeys : ∀ l : List (Row X), ∀ e ∈ Node.pairsNorm (kept l), e.1 ∈ l.map (·.json) := by
    intro l
    induction l with
    | nil => intro e he; cases he
    | cons r l ih =>
      intro e he
      simp only [kept] at he
      split at he
      · exact List.mem_cons_of_mem _ (ih e he)
      · simp only [Node.pairsNorm, List.mem_cons] at he
        rcases he with rfl | he
        · simp
        · exact List.mem_cons_of_mem _ (ih e he)
  have happ : ∀ (a b : List (Str × Node X)), lookupKey k (a ++ b) = (lookupKey k a).or (lookupKey k b) := by
    intro a b
    induction a with
    | nil => rfl
    | cons e a ih =>
      obtain ⟨k', v⟩ := e
      simp only [List.cons_append, lookupKey]
      split
      · rfl
      · exact ih
  have hnone : ∀ a : List (Str × Node X), (∀ e ∈ a, e.1 ≠ k) → lookupKey k a = none := by
    intro a ha
    cases h : lookupKey k a with
    | none => rfl
    | some v => exact absurd rfl (ha _ (mem_of_lookup h))
  induction l with
  | nil => rfl
  | cons r l ih =>
    rw [List.map_cons, List.nodup_cons] at hn
    have ih := ih hn.2
    by_cases hk : r.json = k
    · have hg : rowGet (r :: l) k = if r.drop && emptyNode r.node then none else some r.node.norm := by simp [rowGet, hk]
      have h0 : lookupKey k (Node.pairsNorm (kept l)).reverse = none := hnone _ fun e he h => hn.1 (by rw [hk, ← h]; exact hkeys l e (by simpa using he))
      rw [hg]
      simp only [kept]
      split
      · exact h0
      · simp only [Node.pairsNorm, List.reverse_cons, happ, h0, Option.none_or, lookupKey, hk, if_true]
    · have hg : rowGet (r :: l) k = rowGet l k := by simp [rowGet, hk]
      rw [hg]
      simp only [kept]
      split
      · exact ih
      · simp only [Node.pairsNorm, List.reverse_cons, happ, ih, lookupKey]
        have : ¬ k = r.json := fun h => hk h.symm
        simp [this]

theorem kept_fits {d : Nat} (l : List (Row X)) (h : ∀ r ∈ l, Fits d r.node) : Fits (d + 1) (.pairs (kept l)) := by
  refine fits_pairs _ fun e he => ?_
  induction l with
  | nil => cases he
  | cons r l ih =>
    simp only [kept] at he
    split at he
    · exact ih (fun r hr => h r (by simp [hr])) he
    · rcases List.mem_cons.mp he with rfl | he
      · exact h r (by simp)
      · exact ih (fun r hr => h r (by simp [hr])) he

/-- A struct whose fields have names of their own: it can be written, and read. -/
theorem struct_says (O : Order) {d : Nat} {fs : Fields} {v : FVals X fs} (l : List (Row X)) (h : marshalFields O fs v = .ok (kept l)) (hn : (l.map (·.json)).Nodup) (hf : ∀ r ∈ l, Fits d r.node) :
    ∃ nd, marshal O (.struct fs) v = .ok nd ∧ Fits (d + 1) nd ∧ emptyNode nd = false ∧ ∀ k, member nd.norm k = rowGet l (lit k) := by
  refine ⟨.pairs (kept l), ?_, kept_fits l hf, rfl, fun k => ?_⟩
  · show (marshalFields O fs v).bind (fun l => .ok (Node.pairs l)) = _
    rw [h, Ws.bind_ok_eq]
  · show lookupKey (lit k) (ofEntries (Node.pairsNorm (kept l))) = _
    rw [lookup_ofEntries, kept_lookup _ _ hn]

/-- A map, given what its elements are marshalled to. -/
theorem map_says (O : Order) {t : Ty} (m : List (Str × Val X t)) (g : Str × Val X t → Node X) (hs : SortedKeys m) (h : ∀ e ∈ m, marshal O t e.2 = .ok (g e)) :
    marshal O (.map .str t) (some m : Option (List (Str × Val X t))) = .ok (.map (m.map fun e => (e.1, g e))) := by
  have hp : ∀ e ∈ O.perm m, e ∈ m := fun e he => (O.isPerm m).mem_iff.1 he
  have hr : ∀ l : List (Str × Val X t), (∀ e ∈ l, e ∈ m) →
      mapRes (fun e => (marshal O t e.2).bind fun n => if KTy.str = KTy.other then Res.err else .ok (e.1, n)) l = .ok (l.map fun e => (e.1, g e)) := by
    intro l hl
    induction l with
    | nil => rfl
    | cons e l ih =>
      rw [mapRes, ih fun e he => hl e (by simp [he]), h e (hl e (by simp))]
      rfl
  simp only [marshal, hr _ hp, Ws.bind_ok_eq]
  rw [ofEntries_perm _ _ ((O.isPerm m).map _) (sorted_map_val g m hs)]

theorem slice_says (O : Order) {t : Ty} (l : List (Val X t)) (g : Val X t → Node X) (h : ∀ e ∈ l, marshal O t e = .ok (g e)) :
    marshal O (.slice t) (some l : Option (List (Val X t))) = .ok (.list (l.map g)) := by
  have hr : mapRes (marshal O t) l = .ok (l.map g) := by
    induction l with
    | nil => rfl
    | cons e l ih => simp [mapRes, h e (by simp), Res.bind, ih fun e he => h e (by simp [he])]
  simp only [marshal, hr, Ws.bind_ok_eq]

theorem ptr_struct (O : Order) {fs : Fields} (v : FVals X fs) {nd : Node X} (h : marshal O (.struct fs) v = .ok nd) : marshal O (.ptr (.struct fs)) (some v : Option (FVals X fs)) = .ok nd := by
  simp only [marshal] at h ⊢
  rw [h]; rfl

theorem strings (O : Order) (l : List Str) : marshal (X := X) O (.slice .string) (some l : Option (List Str)) = .ok (.list (l.map .str)) :=
  slice_says O (t := .string) l (fun s => .str s) fun _ _ => rfl

/-! ### lemmas: schemas -/

/-- The rows of a `Schema`. -/
def schemaRows (ty fmt : Str) (req props addl : Node X) (desc : Str) (ex items allOf : Node X) (ref : Str) : List (Row X) :=
  [⟨lit "Type", lit "type", true, .str ty⟩, ⟨lit "Format", lit "format", true, .str fmt⟩, ⟨lit "Required", lit "required", true, req⟩, ⟨lit "Properties", lit "properties", true, props⟩,
   ⟨lit "AdditionalProps", lit "additionalProperties", true, addl⟩, ⟨lit "Description", lit "description", true, .str desc⟩, ⟨lit "Example", lit "example", true, ex⟩,
   ⟨lit "Items", lit "items", true, items⟩, ⟨lit "Default", lit "default", true, .str []⟩, ⟨lit "Enum", lit "enum", true, .nil⟩, ⟨lit "AllOf", lit "allOf", true, allOf⟩,
   ⟨lit "Reference", lit "$ref", true, .str ref⟩]

theorem schema_fields (O : Order) (n : Nat) (ty fmt : Str) (req : Option (List Str)) (props : Option (List (Str × Option (FVals X (schemaTy n))))) (addl : Option (FVals X (schemaTy n))) (desc : Str)
    (ex : Any X) (items : Option (FVals X (schemaTy n))) (allOf : Option (List (Option (FVals X (schemaTy n))))) (ref : Str) (nr np na ni nl : Node X)
    (hr : marshal O (.slice .string) req = .ok nr) (hp : marshal O (.map .str (.ptr (.struct (schemaTy n)))) props = .ok np) (ha : marshal O (.ptr (.struct (schemaTy n))) addl = .ok na)
    (hi : marshal O (.ptr (.struct (schemaTy n))) items = .ok ni) (hl : marshal O (.slice (.ptr (.struct (schemaTy n)))) allOf = .ok nl) :
    marshalFields O (schemaTy (n + 1)) (schemaVal n ty fmt req props addl desc ex items allOf ref) = .ok (kept (schemaRows ty fmt nr np na desc ex.marshal ni nl ref)) :=
  mf_cons O _ _ _ (by decide +kernel) rfl (mf_cons O _ _ _ (by decide +kernel) rfl (mf_cons O _ _ _ (by decide +kernel) hr (mf_cons O _ _ _ (by decide +kernel) hp
    (mf_cons O _ _ _ (by decide +kernel) ha (mf_cons O _ _ _ (by decide +kernel) rfl (mf_cons O _ _ _ (by decide +kernel) rfl (mf_cons O _ _ _ (by decide +kernel) hi
    (mf_cons O _ _ _ (by decide +kernel) rfl (mf_cons O _ _ _ (by decide +kernel) rfl (mf_cons O _ _ _ (by decide +kernel) hl (mf_cons O _ _ _ (by decide +kernel) rfl rfl)))))))))))

theorem schemaRows_nodup (ty fmt : Str) (req props addl : Node X) (desc : Str) (ex items allOf : Node X) (ref : Str) :
    ((schemaRows ty fmt req props addl desc ex items allOf ref).map (·.json)).Nodup := by
  show [lit "type", lit "format", lit "required", lit "properties", lit "additionalProperties", lit "description", lit "example", lit "items", lit "default", lit "enum", lit "allOf", lit "$ref"].Nodup
  decide +kernel

/-- A value that is left out if it is empty. -/
def opt (x : Node X) : Option (Node X) := if emptyNode x then none else some x.norm

theorem opt_str (s : Str) : opt (.str s : Node X) = textOf s := by simp [opt, emptyNode, textOf, Node.norm]

theorem opt_full {x : Node X} (h : emptyNode x = false) : opt x = some x.norm := by rw [opt, h]; rfl

/-- A `Schema` as a reader sees it. -/
theorem schema_struct (O : Order) (d n : Nat) (ty fmt : Str) (req : Option (List Str)) (props : Option (List (Str × Option (FVals X (schemaTy n))))) (addl : Option (FVals X (schemaTy n))) (desc : Str)
    (ex : Any X) (items : Option (FVals X (schemaTy n))) (allOf : Option (List (Option (FVals X (schemaTy n))))) (ref : Str) (nr np na ni nl : Node X)
    (hr : marshal O (.slice .string) req = .ok nr) (hp : marshal O (.map .str (.ptr (.struct (schemaTy n)))) props = .ok np) (ha : marshal O (.ptr (.struct (schemaTy n))) addl = .ok na)
    (hi : marshal O (.ptr (.struct (schemaTy n))) items = .ok ni) (hl : marshal O (.slice (.ptr (.struct (schemaTy n)))) allOf = .ok nl) (f1 : Fits d nr) (f2 : Fits d np) (f3 : Fits d na)
    (f4 : Fits d ex.marshal) (f5 : Fits d ni) (f6 : Fits d nl) :
    ∃ nd, marshal O (.struct (schemaTy (n + 1))) (schemaVal n ty fmt req props addl desc ex items allOf ref) = .ok nd ∧ Fits (d + 1) nd ∧ emptyNode nd = false ∧
      member nd.norm "type" = textOf ty ∧ member nd.norm "format" = textOf fmt ∧ member nd.norm "description" = textOf desc ∧ member nd.norm "required" = opt nr ∧ member nd.norm "properties" = opt np ∧
      member nd.norm "additionalProperties" = opt na ∧ member nd.norm "example" = opt ex.marshal ∧ member nd.norm "items" = opt ni ∧ member nd.norm "default" = none ∧ member nd.norm "enum" = none ∧
      member nd.norm "allOf" = opt nl ∧ member nd.norm "$ref" = textOf ref := by
  obtain ⟨nd, h1, h2, h3, h4⟩ := struct_says O (d := d) _ (schema_fields O n ty fmt req props addl desc ex items allOf ref nr np na ni nl hr hp ha hi hl) (schemaRows_nodup ..) (by
    have s0 : ∀ s : Str, Fits d (.str s : Node X) := fun s => fits_mono (fits_str s) (Nat.zero_le _)
    simp only [schemaRows, List.mem_cons, List.not_mem_nil, or_false, forall_eq_or_imp, forall_eq]
    exact ⟨s0 _, s0 _, f1, f2, f3, s0 _, f4, f5, s0 _, fits_mono fits_nil (Nat.zero_le _), f6, s0 _⟩)
  refine ⟨nd, h1, h2, h3, ?_⟩
  simp only [h4]
  exact ⟨opt_str ty, opt_str fmt, opt_str desc, rfl, rfl, rfl, rfl, rfl, rfl, rfl, rfl, opt_str ref⟩

mutual
/-- Properties have names of their own, everywhere. -/
def Sorted : Schema → Prop
  | .leaf _ _ _ | .ref _ _ => True
  | .array _ _ s | .map _ _ s => Sorted s
  | .object _ _ ps => SortedKeys ps ∧ AllSorted ps
def AllSorted : List (Str × Schema) → Prop
  | [] => True
  | (_, s) :: ps => Sorted s ∧ AllSorted ps
end

/-- What a schema is marshalled to. -/
def nodeOf (O : Order) (n : Nat) (s : Schema) : Node X := (marshal O (.struct (schemaTy n)) (val X n s)).getD .nil

theorem propsVal_eq (n : Nat) : ∀ ps : List (Str × Schema), propsVal X n ps = ps.map fun e => (e.1, some (val X n e.2))
  | [] => by simp only [propsVal, List.map_nil]
  | (k, s) :: ps => by simp only [propsVal, List.map_cons, propsVal_eq n ps]

theorem allSay_map (f : Schema → Node X) : ∀ ps : List (Str × Schema), (∀ e ∈ ps, Says e.2 (f e.2)) → AllSay ps (ps.map fun e => (e.1, f e.2))
  | [], _ => by simp only [AllSay, List.map_nil]
  | (k, s) :: ps, h => by
    simp only [AllSay, List.map_cons]
    exact ⟨_, _, rfl, h (k, s) (by simp), allSay_map f ps fun e he => h e (by simp [he])⟩

/-- The map of some schemas. -/
theorem props_says (O : Order) (n d : Nat) (ps : List (Str × Schema)) (hs : SortedKeys ps)
    (h : ∀ e ∈ ps, marshal O (.struct (schemaTy n)) (val X n e.2) = .ok (nodeOf O n e.2) ∧ Fits d (nodeOf (X := X) O n e.2) ∧ Says e.2 (nodeOf (X := X) O n e.2).norm) :
    ∃ m, marshal O (.map .str (.ptr (.struct (schemaTy n)))) (some (propsVal X n ps) : Option (List (Str × Option (FVals X (schemaTy n))))) = .ok (.map m) ∧ Fits (d + 1) (.map m) ∧
      ∃ m', (Node.map m).norm = .map m' ∧ AllSay ps m' := by
  refine ⟨ps.map fun e => (e.1, nodeOf O n e.2), ?_, ?_, _, rfl, ?_⟩
  · have := map_says (X := X) O (t := .ptr (.struct (schemaTy n))) (propsVal X n ps)
      (fun e => match (e.2 : Option (FVals X (schemaTy n))) with | some v => (marshal O (.struct (schemaTy n)) v).getD .nil | none => .nil)
      (by rw [propsVal_eq]; exact sorted_map_val (fun e => (some (val X n e.2) : Option (FVals X (schemaTy n)))) ps hs) (by
        rw [propsVal_eq]
        intro e he
        obtain ⟨e', he', rfl⟩ := List.mem_map.mp he
        exact ptr_struct O _ (h e' he').1)
    refine this.trans ?_
    rw [propsVal_eq]
    exact congrArg (fun l => Res.ok (Node.map l)) List.map_map
  · refine fits_map _ (sorted_map_val (fun e => nodeOf O n e.2) ps hs) fun e he => ?_
    obtain ⟨e', he', rfl⟩ := List.mem_map.mp he
    exact (h e' he').2.1
  · rw [mapNorm_eq, List.map_map]
    exact allSay_map (fun s => (nodeOf O n s).norm) ps fun e he => (h e he).2.2

theorem getD_ok {α : Type} {r : Res α} {a d : α} (h : r = .ok a) : r = .ok (r.getD d) := by rw [h]; rfl

/-- A reference has no other members. -/
theorem ref_struct (O : Order) (n : Nat) (r : Str) (hr : r ≠ []) :
    ∃ nd, marshal O (.struct (schemaTy (n + 1))) (schemaVal n [] [] none none none [] .nil none none r) = .ok nd ∧ Fits 1 nd ∧ (nd : Node X).norm = .map [(lit "$ref", .str r)] := by
  have h := schema_fields (X := X) O n [] [] none none none [] .nil none none r .nil .nil .nil .nil .nil rfl rfl rfl rfl rfl
  have hk : kept (schemaRows (X := X) [] [] .nil .nil .nil [] .nil .nil .nil r) = [((lit "Reference", lit "$ref"), .str r)] := by
    simp [kept, schemaRows, emptyNode, hr]
  refine ⟨.pairs [((lit "Reference", lit "$ref"), .str r)], ?_, fits_pairs _ fun e he => ?_, rfl⟩
  · show (marshalFields O _ _).bind (fun l => .ok (Node.pairs l)) = _
    rw [h, Ws.bind_ok_eq]
    exact congrArg (fun l => Res.ok (Node.pairs l)) hk
  · obtain rfl := List.mem_singleton.mp he
    exact fits_str r

mutual
/-- Every schema is marshalled to what says it. -/
theorem schema_says (O : Order) : ∀ (s : Schema) (n : Nat), deep s < n → Sorted s →
    marshal O (.struct (schemaTy n)) (val X n s) = .ok (nodeOf O n s) ∧ Fits (2 * deep s + 1) (nodeOf (X := X) O n s) ∧ emptyNode (nodeOf (X := X) O n s) = false ∧ Says s (nodeOf (X := X) O n s).norm
  | .leaf ty fmt desc, n + 1, _, _ => by
    obtain ⟨nd, h1, h2, h3, h4⟩ := schema_struct (X := X) O 0 n ty fmt none none none desc .nil none none [] .nil .nil .nil .nil .nil rfl rfl rfl rfl rfl fits_nil fits_nil fits_nil fits_nil fits_nil fits_nil
    have hv : val X (n + 1) (.leaf ty fmt desc) = schemaVal n ty fmt none none none desc .nil none none [] := by rw [val]
    have hn : nodeOf O (n + 1) (.leaf ty fmt desc) = nd := by rw [nodeOf, hv, h1]; rfl
    rw [hn, hv, deep]
    refine ⟨h1, h2, h3, ?_⟩
    obtain ⟨a1, a2, a3, a4⟩ := h4
    rw [Says]
    exact ⟨a1, a2, a3, by simpa [parts, opt, emptyNode, textOf, Any.marshal] using a4⟩
  | .ref key desc, 0 + 1, h, _ => by simp [deep] at h
  | .ref key desc, n + 1 + 1, _, _ => by
    obtain ⟨nr, r1, r2, r3⟩ := ref_struct (X := X) O n (lit "#/components/schemas/" ++ key) (by simp [lit])
    have hl : marshal (X := X) O (.slice (.ptr (.struct (schemaTy (n + 1)))))
        (some [some (schemaVal n [] [] none none none [] .nil none none (lit "#/components/schemas/" ++ key))] : Option (List (Option (FVals X (schemaTy (n + 1)))))) = .ok (.list [nr]) :=
      slice_says (X := X) O (t := .ptr (.struct (schemaTy (n + 1)))) [some (schemaVal n [] [] none none none [] .nil none none (lit "#/components/schemas/" ++ key))] (fun _ => nr)
        (fun e he => by obtain rfl := List.mem_singleton.mp he; exact ptr_struct O _ r1)
    have f0 : Fits 2 (.nil : Node X) := fits_mono fits_nil (by omega)
    obtain ⟨nd, h1, h2, h3, a1, a2, a3, a4, a5, a6, a7, a8, a9, a10, a11, a12⟩ := schema_struct (X := X) O 2 (n + 1) [] [] none none none desc .nil none
      (some [some (schemaVal n [] [] none none none [] .nil none none (lit "#/components/schemas/" ++ key))]) [] .nil .nil .nil .nil (.list [nr]) rfl rfl rfl rfl hl f0 f0 f0 f0 f0
      (fits_list _ fun m hm => by obtain rfl := List.mem_singleton.mp hm; exact r2)
    have hv : val X (n + 1 + 1) (.ref key desc) = schemaVal (n + 1) [] [] none none none desc .nil none
      (some [some (schemaVal n [] [] none none none [] .nil none none (lit "#/components/schemas/" ++ key))]) [] := by rw [val]
    have hn : nodeOf O (n + 1 + 1) (.ref key desc) = nd := by rw [nodeOf, hv, h1]; rfl
    rw [hn, hv, deep]
    refine ⟨h1, h2, h3, ?_⟩
    rw [Says]
    refine ⟨⟨a1, a2, a3, ?_⟩, ?_⟩
    · simp [parts, opt, emptyNode, textOf, Any.marshal, a4, a5, a6, a7, a8, a9, a10, a12]
    · rw [a11]
      simp [opt, emptyNode, Node.norm, Node.listNorm, r3]
  | .array fmt desc s, n + 1, hd, hs => by
    rw [deep] at hd
    rw [Sorted] at hs
    obtain ⟨i1, i2, i3, i4⟩ := schema_says O s n (by omega) hs
    have f0 : Fits (2 * deep s + 1) (.nil : Node X) := fits_mono fits_nil (by omega)
    obtain ⟨nd, h1, h2, h3, a1, a2, a3, a4, a5, a6, a7, a8, a9, a10, a11, a12⟩ := schema_struct (X := X) O (2 * deep s + 1) n (lit "array") fmt none none none desc .nil (some (val X n s)) none []
      .nil .nil .nil (nodeOf O n s) .nil rfl rfl rfl (ptr_struct O _ i1) rfl f0 f0 f0 f0 i2 f0
    have hv : val X (n + 1) (.array fmt desc s) = schemaVal n (lit "array") fmt none none none desc .nil (some (val X n s)) none [] := by rw [val]
    have hn : nodeOf O (n + 1) (.array fmt desc s) = nd := by rw [nodeOf, hv, h1]; rfl
    rw [hn, hv, deep]
    refine ⟨h1, fits_mono h2 (by omega), h3, ?_⟩
    rw [Says]
    exact ⟨⟨a1, a2, a3, by simp [parts, opt, emptyNode, textOf, Any.marshal, a4, a5, a6, a7, a9, a10, a11, a12]⟩, _, a8.trans (opt_full i3), i4⟩
  | .map fmt desc s, n + 1, hd, hs => by
    rw [deep] at hd
    rw [Sorted] at hs
    obtain ⟨i1, i2, i3, i4⟩ := schema_says O s n (by omega) hs
    have f0 : Fits (2 * deep s + 1) (.nil : Node X) := fits_mono fits_nil (by omega)
    obtain ⟨nd, h1, h2, h3, a1, a2, a3, a4, a5, a6, a7, a8, a9, a10, a11, a12⟩ := schema_struct (X := X) O (2 * deep s + 1) n (lit "object") fmt none none (some (val X n s)) desc .nil none none []
      .nil .nil (nodeOf O n s) .nil .nil rfl rfl (ptr_struct O _ i1) rfl rfl f0 f0 i2 f0 f0 f0
    have hv : val X (n + 1) (.map fmt desc s) = schemaVal n (lit "object") fmt none none (some (val X n s)) desc .nil none none [] := by rw [val]
    have hn : nodeOf O (n + 1) (.map fmt desc s) = nd := by rw [nodeOf, hv, h1]; rfl
    rw [hn, hv, deep]
    refine ⟨h1, fits_mono h2 (by omega), h3, ?_⟩
    rw [Says]
    exact ⟨⟨a1, a2, a3, by simp [parts, opt, emptyNode, textOf, Any.marshal, a4, a5, a7, a8, a9, a10, a11, a12]⟩, _, a6.trans (opt_full i3), i4⟩
  | .object fmt desc ps, n + 1, hd, hs => by
    rw [deep] at hd
    rw [Sorted] at hs
    obtain ⟨m, p1, p2, m', p3, p4⟩ := props_says (X := X) O n (2 * propsDeep ps + 1) ps hs.1 (all_says O ps n (by omega) hs.2)
    have f0 : Fits (2 * propsDeep ps + 2) (.nil : Node X) := fits_mono fits_nil (by omega)
    obtain ⟨nd, h1, h2, h3, a1, a2, a3, a4, a5, a6, a7, a8, a9, a10, a11, a12⟩ := schema_struct (X := X) O (2 * propsDeep ps + 2) n (lit "object") fmt none (some (propsVal X n ps)) none desc .nil none none []
      .nil (.map m) .nil .nil .nil rfl p1 rfl rfl rfl f0 p2 f0 f0 f0 f0
    have hv : val X (n + 1) (.object fmt desc ps) = schemaVal n (lit "object") fmt none (some (propsVal X n ps)) none desc .nil none none [] := by rw [val]
    have hn : nodeOf O (n + 1) (.object fmt desc ps) = nd := by rw [nodeOf, hv, h1]; rfl
    rw [hn, hv, deep]
    refine ⟨h1, fits_mono h2 (by omega), h3, ?_⟩
    rw [Says]
    exact ⟨⟨a1, a2, a3, by simp [parts, opt, emptyNode, textOf, Any.marshal, a4, a6, a7, a8, a9, a10, a11, a12]⟩, m', by rw [a5, opt_full rfl, p3], p4⟩
/-- So are those of all properties. -/
theorem all_says (O : Order) : ∀ (ps : List (Str × Schema)) (n : Nat), propsDeep ps < n → AllSorted ps →
    ∀ e ∈ ps, marshal O (.struct (schemaTy n)) (val X n e.2) = .ok (nodeOf O n e.2) ∧ Fits (2 * propsDeep ps + 1) (nodeOf (X := X) O n e.2) ∧ Says e.2 (nodeOf (X := X) O n e.2).norm
  | [], _, _, _ => by intro e he; cases he
  | (k, s) :: ps, n, hd, hs => by
    rw [propsDeep] at hd
    rw [AllSorted] at hs
    obtain ⟨i1, i2, i3, i4⟩ := schema_says O s n (by omega) hs.1
    have ih := all_says O ps n (by omega) hs.2
    intro e he
    rcases List.mem_cons.mp he with rfl | he
    · exact ⟨i1, fits_mono i2 (by rw [propsDeep]; omega), i4⟩
    · exact ⟨(ih e he).1, fits_mono (ih e he).2.1 (by rw [propsDeep]; omega), (ih e he).2.2⟩
end

/-! ### lemmas: paths -/

theorem dig_cons (n : Node X) (k : String) (ks : List String) {m : Node X} (h : member n k = some m) : dig n (k :: ks) = dig m ks := by rw [dig, h]; rfl

theorem bind_some {α : Type} (o : Option α) : (o.bind fun m => some m) = o := by cases o <;> rfl

theorem media_says (O : Order) (n D : Nat) (v : FVals X (schemaTy n)) {nv : Node X} (h : marshal O (.struct (schemaTy n)) v = .ok nv) (hf : Fits D nv) :
    ∃ nd, marshal O (.map .str (.struct (mediaTy n))) (mediaVal n v) = .ok (.map [(lit "application/json", nd)]) ∧ Fits (D + 2) (.map [(lit "application/json", nd)]) ∧
      dig (Node.map [(lit "application/json", nd)]).norm ["application/json", "schema"] = some nv.norm := by
  obtain ⟨nd, h1, h2, -, h4⟩ := struct_says (X := X) O (d := D) (fs := mediaTy n) (v := ((some v, ()) : Option (FVals X (schemaTy n)) × Unit)) [⟨lit "Schema", lit "schema", false, nv⟩]
    (mf_cons O _ _ _ (by decide +kernel) (ptr_struct O v h) rfl) (by simp) (fun r hr => by obtain rfl := List.mem_singleton.mp hr; exact hf)
  have hs : ∀ {α : Type} (a : α), SortedKeys [(lit "application/json", a)] := fun a => by simp [SortedKeys]
  refine ⟨nd, ?_, fits_map _ (hs nd) (fun e he => by obtain rfl := List.mem_singleton.mp he; exact h2), ?_⟩
  · exact map_says (X := X) O (t := .struct (mediaTy n)) [(lit "application/json", ((some v, ()) : Option (FVals X (schemaTy n)) × Unit))] (fun _ => nd) (hs _)
      (fun e he => by obtain rfl := List.mem_singleton.mp he; exact h1)
  · have e : (Node.map [(lit "application/json", nd)]).norm = .map [(lit "application/json", nd.norm)] := by simp [Node.norm, Node.mapNorm]
    rw [e, dig_cons (m := nd.norm) _ _ _ (by simp [member, lookupKey]), dig_cons (m := nv.norm) _ _ _ (h4 "schema"), dig]

/-- What the security of a path is marshalled to. -/
def secNode : Option Bool → Node X
  | none => .nil
  | some true => .list [.map [(lit "jwt", .list [])]]
  | some false => .list [.map [(lit "jwt", .list [])], .map []]

theorem security_says (O : Order) (sec : Option Bool) :
    marshal (X := X) O (.slice (.map .str .any)) (securityVal sec) = .ok (secNode sec) ∧ Fits 3 (secNode (X := X) sec) ∧ opt (secNode (X := X) sec) = access sec := by
  have hj : marshal (X := X) O (.map .str .any) (some [(lit "jwt", Any.list [])] : Option (List (Str × Any X))) = .ok (.map [(lit "jwt", .list [])]) :=
    map_says (X := X) O (t := .any) [(lit "jwt", Any.list [])] (fun _ => .list []) (by simp [SortedKeys]) (fun e he => by obtain rfl := List.mem_singleton.mp he; rfl)
  have he : marshal (X := X) O (.map .str .any) (some [] : Option (List (Str × Any X))) = .ok (.map []) := map_says (X := X) O (t := .any) [] (fun _ => .nil) (by simp [SortedKeys]) (by simp)
  have fe : Fits 2 (.map [] : Node X) := fits_map _ (by simp [SortedKeys]) (by simp)
  have fj : Fits 2 (.map [(lit "jwt", .list [])] : Node X) :=
    fits_map _ (by simp [SortedKeys]) (fun e he => by obtain rfl := List.mem_singleton.mp he; exact fits_mono (fits_list (d := 0) [] (by simp)) (by omega))
  match sec with
  | none => exact ⟨rfl, fits_mono fits_nil (by omega), rfl⟩
  | some true =>
    refine ⟨?_, fits_list _ (fun m hm => by obtain rfl := List.mem_singleton.mp hm; exact fj), rfl⟩
    exact slice_says (X := X) O (t := .map .str .any) [some [(lit "jwt", Any.list [])]] (fun _ => .map [(lit "jwt", .list [])]) (fun e he => by obtain rfl := List.mem_singleton.mp he; exact hj)
  | some false =>
    refine ⟨?_, fits_list _ (fun m hm => by
      rcases List.mem_cons.mp hm with rfl | hm
      · exact fj
      · obtain rfl := List.mem_singleton.mp hm; exact fe), rfl⟩
    refine slice_says (X := X) O (t := .map .str .any) [some [(lit "jwt", Any.list [])], some []] (fun e => match (e : Option (List (Str × Any X))) with | some [] => .map [] | _ => .map [(lit "jwt", .list [])]) ?_
    intro e hm
    rcases List.mem_cons.mp hm with rfl | hm
    · exact hj
    · obtain rfl := List.mem_singleton.mp hm; exact he

theorem item_says (O : Order) (n D : Nat) (h3 : 3 ≤ D + 4) (summary : Str) (vi vo : FVals X (schemaTy n)) (sec : Option Bool) {ni no : Node X} (hi : marshal O (.struct (schemaTy n)) vi = .ok ni)
    (ho : marshal O (.struct (schemaTy n)) vo = .ok no) (fi : Fits D ni) (fo : Fits D no) (I Q : Node X → Prop) (pi : I ni.norm) (po : Q no.norm) :
    ∃ nd, marshal O (.struct (itemTy n)) (itemVal n summary vi vo sec) = .ok nd ∧ Fits (D + 5) nd ∧ emptyNode nd = false ∧ SaysItem summary I Q sec nd.norm := by
  obtain ⟨mi, a1, a2, a3⟩ := media_says O n D vi hi fi
  obtain ⟨mo, b1, b2, b3⟩ := media_says O n D vo ho fo
  obtain ⟨bi, c1, c2, c3, c4⟩ := struct_says (X := X) O (d := D + 2) (fs := bodyTy n) (v := ((mediaVal n vi, false, ()) : Option (List (Str × FVals X (mediaTy n))) × Bool × Unit))
    [⟨lit "Content", lit "content", false, _⟩, ⟨lit "Required", lit "required", false, .bool false⟩]
    (mf_cons O _ _ _ (by decide +kernel) a1 (mf_cons O _ _ _ (by decide +kernel) rfl rfl)) (by show [lit "content", lit "required"].Nodup; decide +kernel) (by
      simp only [List.mem_cons, List.not_mem_nil, or_false, forall_eq_or_imp, forall_eq]
      exact ⟨a2, fits_mono (fits_bool _) (by omega)⟩)
  obtain ⟨re, d1, d2, d3, d4⟩ := struct_says (X := X) O (d := D + 2) (fs := responseTy n) (v := ((([] : Str), mediaVal n vo, ()) : Str × Option (List (Str × FVals X (mediaTy n))) × Unit))
    [⟨lit "Description", lit "description", false, .str []⟩, ⟨lit "Content", lit "content", true, _⟩]
    (mf_cons O _ _ _ (by decide +kernel) rfl (mf_cons O _ _ _ (by decide +kernel) b1 rfl)) (by show [lit "description", lit "content"].Nodup; decide +kernel) (by
      simp only [List.mem_cons, List.not_mem_nil, or_false, forall_eq_or_imp, forall_eq]
      exact ⟨fits_mono (fits_str _) (by omega), b2⟩)
  have hs : ∀ {α : Type} (a : α), SortedKeys [(lit "200", a)] := fun a => by simp [SortedKeys]
  have e1 : marshal (X := X) O (.map .str (.struct (responseTy n))) (some [(lit "200", (([] : Str), mediaVal n vo, ()))] : Option (List (Str × (Str × Option (List (Str × FVals X (mediaTy n))) × Unit)))) =
      .ok (.map [(lit "200", re)]) :=
    map_says (X := X) O (t := .struct (responseTy n)) [(lit "200", (([] : Str), mediaVal n vo, ()))] (fun _ => re) (hs _) (fun e he => by obtain rfl := List.mem_singleton.mp he; exact d1)
  have e2 : Fits (D + 4) (.map [(lit "200", re)]) := fits_map _ (hs _) (fun e he => by obtain rfl := List.mem_singleton.mp he; exact d2)
  obtain ⟨s1, s2, s3⟩ := security_says (X := X) O sec
  obtain ⟨nd, g1, g2, g3, g4⟩ := struct_says (X := X) O (d := D + 4) (fs := itemTy n) (v := itemVal n summary vi vo sec)
    [⟨lit "Summary", lit "summary", false, .str summary⟩, ⟨lit "Description", lit "description", false, .str []⟩, ⟨lit "RequestBody", lit "requestBody", true, bi⟩, ⟨lit "Servers", lit "servers", true, .nil⟩,
      ⟨lit "Responses", lit "responses", false, .map [(lit "200", re)]⟩, ⟨lit "Security", lit "security", true, secNode sec⟩, ⟨lit "Deprecated", lit "deprecated", true, .bool false⟩,
      ⟨lit "Parameters", lit "parameters", true, .nil⟩]
    (mf_cons O _ _ _ (by decide +kernel) rfl (mf_cons O _ _ _ (by decide +kernel) rfl (mf_cons O _ _ _ (by decide +kernel) (ptr_struct O _ c1) (mf_cons O _ _ _ (by decide +kernel) rfl
      (mf_cons O _ _ _ (by decide +kernel) e1 (mf_cons O _ _ _ (by decide +kernel) s1 (mf_cons O _ _ _ (by decide +kernel) rfl (mf_cons O _ _ _ (by decide +kernel) rfl rfl))))))))
    (by show [lit "summary", lit "description", lit "requestBody", lit "servers", lit "responses", lit "security", lit "deprecated", lit "parameters"].Nodup; decide +kernel) (by
      simp only [List.mem_cons, List.not_mem_nil, or_false, forall_eq_or_imp, forall_eq]
      exact ⟨fits_mono (fits_str _) (by omega), fits_mono (fits_str _) (by omega), fits_mono c2 (by omega), fits_mono fits_nil (by omega), e2, fits_mono s2 h3, fits_mono (fits_bool _) (by omega),
        fits_mono fits_nil (by omega)⟩)
  refine ⟨nd, g1, g2, g3, g4 "summary", ⟨ni.norm, ?_, pi⟩, ⟨no.norm, ?_, po⟩, (g4 "security").trans s3, ?_⟩
  · rw [dig_cons (m := bi.norm) _ _ _ ((g4 "requestBody").trans (opt_full c3)), dig_cons _ _ _ (c4 "content")]
    exact a3
  · rw [dig_cons _ _ _ (g4 "responses"), dig_cons (m := re.norm) _ _ _ (by simp [Node.norm, Node.mapNorm, member, lookupKey]), dig_cons _ _ _ (d4 "content")]
    exact b3
  · rw [dig_cons (m := bi.norm) _ _ _ ((g4 "requestBody").trans (opt_full c3)), dig_cons _ _ _ (c4 "required")]
    rfl

theorem object_says (O : Order) (n : Nat) (name : Str) (req : List Str) (ps : List (Str × Schema)) (hs : SortedKeys ps) (ha : AllSorted ps) (hd : propsDeep ps < n) :
    ∃ nd, marshal O (.struct (schemaTy (n + 1))) (objectVal (X := X) n name req ps) = .ok nd ∧ Fits (2 * n + 1) nd ∧ SaysObject name req ps nd.norm := by
  obtain ⟨m, p1, p2, m', p3, p4⟩ := props_says (X := X) O n (2 * propsDeep ps + 1) ps hs (all_says O ps n hd ha)
  have f0 : Fits (2 * n) (.nil : Node X) := fits_mono fits_nil (by omega)
  have hr : ∃ nr, marshal (X := X) O (.slice .string) (if req = [] then none else some req : Option (List Str)) = .ok nr ∧ Fits 1 nr ∧ opt nr = if req = [] then none else some (.list (req.map .str)) := by
    by_cases h : req = []
    · rw [if_pos h, if_pos h]
      exact ⟨.nil, rfl, fits_mono fits_nil (by omega), rfl⟩
    · rw [if_neg h, if_neg h]
      refine ⟨_, strings O req, fits_list _ (fun e he => ?_), ?_⟩
      · obtain ⟨s, -, rfl⟩ := List.mem_map.mp he
        exact fits_str s
      · rw [opt_full rfl, Node.norm]
        congr 2
        clear hs ha hd p1 p2 p3 p4 f0 h
        induction req with
        | nil => rfl
        | cons a l ih => simp [Node.listNorm, Node.norm, ih]
  obtain ⟨nr, r1, r2, r3⟩ := hr
  obtain ⟨nd, h1, h2, h3, a1, a2, a3, a4, a5, a6, a7, a8, a9, a10, a11, a12⟩ := schema_struct (X := X) O (2 * n) n (lit "object") name (if req = [] then none else some req) (some (propsVal X n ps)) none [] .nil
    none none [] nr (.map m) .nil .nil .nil r1 p1 rfl rfl rfl (fits_mono r2 (by omega)) (fits_mono p2 (by omega)) f0 f0 f0 f0
  exact ⟨nd, h1, h2, ⟨a1, a2, a3, by simp [parts, opt, emptyNode, textOf, Any.marshal, a6, a7, a8, a9, a10, a11, a12]⟩, a4.trans r3, m', by rw [a5, opt_full rfl, p3], p4⟩

/-- A path whose schemas have properties with names of their own and are not nested deeper than this. -/
def DocOk (n : Nat) : Doc → Prop
  | .bare | .request => True
  | .api _ _ item => SortedKeys item.ins ∧ AllSorted item.ins ∧ propsDeep item.ins < n ∧ SortedKeys item.outs ∧ AllSorted item.outs ∧ propsDeep item.outs < n

theorem path_rows (O : Order) (n : Nat) (D : Nat) (v : FVals X (itemTy n)) {p : Node X} (h : marshal O (.struct (itemTy n)) v = .ok p) (hf : Fits D p) (he : emptyNode p = false) :
    marshal (X := X) O (.struct (pathTy n)) ((some v, none, none, ()) : Option (FVals X (itemTy n)) × Option (FVals X (itemTy n)) × Option (FVals X (itemTy n)) × Unit) =
      .ok (.pairs [((lit "Post", lit "post"), p)]) ∧ Fits (D + 1) (.pairs [((lit "Post", lit "post"), p)]) := by
  refine ⟨?_, fits_pairs _ (fun e he => by obtain rfl := List.mem_singleton.mp he; exact hf)⟩
  show (marshalFields (X := X) O (pathTy n) ((some v, none, none, ()) : Option (FVals X (itemTy n)) × Option (FVals X (itemTy n)) × Option (FVals X (itemTy n)) × Unit)).bind (fun l => .ok (Node.pairs l)) = _
  have : marshalFields (X := X) O (pathTy n) ((some v, none, none, ()) : Option (FVals X (itemTy n)) × Option (FVals X (itemTy n)) × Option (FVals X (itemTy n)) × Unit) =
      .ok (kept [⟨lit "Post", lit "post", true, p⟩, ⟨lit "Get", lit "get", true, .nil⟩, ⟨lit "Upgrade", lit "upgrade", true, .nil⟩]) :=
    mf_cons O _ _ _ (by decide +kernel) (ptr_struct O v h) (mf_cons O _ _ _ (by decide +kernel) rfl (mf_cons O _ _ _ (by decide +kernel) rfl rfl))
  refine (congrArg (fun r => Res.bind r fun l => .ok (Node.pairs l)) this).trans ?_
  rw [Ws.bind_ok_eq]
  have e0 : emptyNode (.nil : Node X) = true := rfl
  simp [kept, he, e0]

theorem path_says (O : Order) (n : Nat) (d : Doc) (h : DocOk n d) :
    ∃ nd, marshal O (.struct (pathTy (n + 1))) (pathVal (X := X) n d) = .ok nd ∧ Fits (2 * n + 7) nd ∧ SaysPath d nd.norm := by
  have hn : ∀ p : Node X, (Node.pairs [((lit "Post", lit "post"), p)]).norm = .map [(lit "post", p.norm)] := fun p => rfl
  match d, h with
  | .bare, _ =>
    refine ⟨.pairs [], ?_, fits_mono (fits_pairs (d := 0) [] (by simp)) (by omega), rfl⟩
    show (marshalFields (X := X) O (pathTy (n + 1)) _).bind (fun l => .ok (Node.pairs l)) = _
    have : marshalFields (X := X) O (pathTy (n + 1)) ((none, none, none, ()) : Option (FVals X (itemTy (n + 1))) × Option (FVals X (itemTy (n + 1))) × Option (FVals X (itemTy (n + 1))) × Unit) =
        .ok (kept [⟨lit "Post", lit "post", true, .nil⟩, ⟨lit "Get", lit "get", true, .nil⟩, ⟨lit "Upgrade", lit "upgrade", true, .nil⟩]) :=
      mf_cons O _ _ _ (by decide +kernel) rfl (mf_cons O _ _ _ (by decide +kernel) rfl (mf_cons O _ _ _ (by decide +kernel) rfl rfl))
    refine (congrArg (fun r => Res.bind r fun l => .ok (Node.pairs l)) this).trans ?_
    rw [Ws.bind_ok_eq]
    simp [kept, emptyNode]
  | .request, _ =>
    obtain ⟨s1, s2, -, s4⟩ := schema_says (X := X) O (.leaf (lit "object") [] []) (n + 1) (by simp [deep]) (by simp [Sorted])
    have hv : val X (n + 1) (.leaf (lit "object") [] []) = schemaVal n (lit "object") [] none none none [] .nil none none [] := by rw [val]
    rw [hv] at s1
    have s2 : Fits (2 * n + 1) _ := fits_mono s2 (by simp [deep])
    obtain ⟨p, p1, p2, p3, p4⟩ := item_says O (n + 1) (2 * n + 1) (by omega) [] _ _ none s1 s1 s2 s2 _ _ s4 s4
    obtain ⟨q1, q2⟩ := path_rows O (n + 1) _ _ p1 p2 p3
    exact ⟨_, q1, q2, p.norm, hn p, p4⟩
  | .api pkg name item, ⟨h1, h2, h3, h4, h5, h6⟩ =>
    obtain ⟨ni, i1, i2, i3⟩ := object_says (X := X) O n name item.required item.ins h1 h2 h3
    obtain ⟨no, o1, o2, o3⟩ := object_says (X := X) O n name [] item.outs h4 h5 h6
    obtain ⟨p, p1, p2, p3, p4⟩ := item_says O (n + 1) (2 * n + 1) (by omega) (pkg ++ lit "." ++ name) _ _ item.security i1 o1 i2 o2 _ _ i3 o3
    obtain ⟨q1, q2⟩ := path_rows O (n + 1) _ _ p1 p2 p3
    exact ⟨_, q1, q2, p.norm, hn p, p4⟩

/-- What a path is marshalled to. -/
def pathNode (O : Order) (n : Nat) (d : Doc) : Node X := (marshal O (.struct (pathTy (n + 1))) (pathVal n d)).getD .nil

theorem pathNode_says (O : Order) (n : Nat) (d : Doc) (h : DocOk n d) :
    marshal O (.struct (pathTy (n + 1))) (pathVal (X := X) n d) = .ok (pathNode O n d) ∧ Fits (2 * n + 7) (pathNode (X := X) O n d) ∧ SaysPath d (pathNode (X := X) O n d).norm := by
  obtain ⟨nd, h1, h2, h3⟩ := path_says (X := X) O n d h
  have : pathNode O n d = nd := by rw [pathNode, h1]; rfl
  rw [this]
  exact ⟨h1, h2, h3⟩

theorem pathsSay_map (f : Doc → Node X) : ∀ ps : List (Str × Doc), (∀ e ∈ ps, SaysPath e.2 (f e.2)) → PathsSay ps (ps.map fun e => (e.1, f e.2))
  | [], _ => by simp only [PathsSay, List.map_nil]
  | (k, s) :: ps, h => by
    simp only [PathsSay, List.map_cons]
    exact ⟨_, _, rfl, h (k, s) (by simp), pathsSay_map f ps fun e he => h e (by simp [he])⟩

/-- A service like those the handlers make: paths and schemas with names of their own, nested no deeper than this. -/
structure ServiceOk (n : Nat) (s : Service) : Prop where
  paths : SortedKeys s.paths
  docs : ∀ e ∈ s.paths, DocOk n e.2
  schemas : SortedKeys s.schemas
  sorted : AllSorted s.schemas
  deep : propsDeep s.schemas < n + 1

theorem paths_says (O : Order) (n : Nat) (ps : List (Str × Doc)) (hs : SortedKeys ps) (hd : ∀ e ∈ ps, DocOk n e.2) :
    ∃ m, marshal (X := X) O (.map .str (.ptr (.struct (pathTy (n + 1))))) (some (ps.map fun p => (p.1, some (pathVal n p.2))) : Option (List (Str × Option (FVals X (pathTy (n + 1)))))) = .ok (.map m) ∧
      Fits (2 * n + 8) (.map m) ∧ ∃ m', (Node.map m).norm = .map m' ∧ PathsSay ps m' := by
  refine ⟨ps.map fun e => (e.1, pathNode O n e.2), ?_, ?_, _, rfl, ?_⟩
  · refine (map_says (X := X) O (t := .ptr (.struct (pathTy (n + 1)))) (ps.map fun p => (p.1, some (pathVal n p.2)))
      (fun e => match (e.2 : Option (FVals X (pathTy (n + 1)))) with | some v => (marshal O (.struct (pathTy (n + 1))) v).getD .nil | none => .nil)
      (sorted_map_val (fun e => (some (pathVal n e.2) : Option (FVals X (pathTy (n + 1))))) ps hs) (by
        intro e he
        obtain ⟨e', he', rfl⟩ := List.mem_map.mp he
        exact ptr_struct O _ (pathNode_says O n e'.2 (hd e' he')).1)).trans ?_
    exact congrArg (fun l => Res.ok (Node.map l)) List.map_map
  · refine fits_map _ (sorted_map_val (fun e => pathNode O n e.2) ps hs) fun e he => ?_
    obtain ⟨e', he', rfl⟩ := List.mem_map.mp he
    exact (pathNode_says O n e'.2 (hd e' he')).2.1
  · rw [mapNorm_eq, List.map_map]
    exact pathsSay_map (fun s => (pathNode O n s).norm) ps fun e he => (pathNode_says O n e.2 (hd e he)).2.2

theorem service_says (O : Order) (n : Nat) (s : Service) (h : ServiceOk n s) :
    ∃ nd, marshal (X := X) O (.ptr (.struct (serviceTy (n + 1)))) (some (serviceVal n s) : Option (FVals X (serviceTy (n + 1)))) = .ok nd ∧ Fits (2 * n + 9) nd ∧ Describes s nd.norm := by
  obtain ⟨m, p1, p2, m', p3, p4⟩ := paths_says (X := X) O n s.paths h.paths h.docs
  have hc : ∃ nc, marshal (X := X) O (.map .str (.ptr (.struct (schemaTy (n + 1))))) (if s.schemas = [] then none else some (propsVal X (n + 1) s.schemas) : Option (List (Str × Option (FVals X (schemaTy (n + 1)))))) =
      .ok nc ∧ Fits (2 * n + 2) nc ∧ if s.schemas = [] then opt nc = none else ∃ m, opt nc = some (.map m) ∧ AllSay s.schemas m := by
    by_cases he : s.schemas = []
    · exact ⟨.nil, by rw [if_pos he]; rfl, fits_mono fits_nil (by omega), by rw [if_pos he]; rfl⟩
    · obtain ⟨m, q1, q2, m', q3, q4⟩ := props_says (X := X) O (n + 1) (2 * propsDeep s.schemas + 1) s.schemas h.schemas (all_says O s.schemas (n + 1) h.deep h.sorted)
      have := h.deep
      exact ⟨_, by rw [if_neg he]; exact q1, fits_mono q2 (by omega), by rw [if_neg he]; exact ⟨m', by rw [opt_full rfl, q3], q4⟩⟩
  obtain ⟨nc, c1, c2, c3⟩ := hc
  have s0 : ∀ s : Str, Fits 0 (.str s : Node X) := fits_str
  obtain ⟨nj, j1, j2, -, -⟩ := struct_says (X := X) O (d := 0) (fs := securityTy) (v := jwtVal)
    [⟨lit "Type", lit "type", false, .str (lit "http")⟩, ⟨lit "Description", lit "description", false, .str []⟩, ⟨lit "Scheme", lit "scheme", true, .str (lit "bearer")⟩,
      ⟨lit "BearerFormat", lit "bearerFormat", true, .str (lit "JWT")⟩, ⟨lit "In", lit "in", true, .str []⟩, ⟨lit "Name", lit "name", true, .str []⟩]
    (mf_cons O _ _ _ (by decide +kernel) rfl (mf_cons O _ _ _ (by decide +kernel) rfl (mf_cons O _ _ _ (by decide +kernel) rfl (mf_cons O _ _ _ (by decide +kernel) rfl
      (mf_cons O _ _ _ (by decide +kernel) rfl (mf_cons O _ _ _ (by decide +kernel) rfl rfl)))))) (by show [lit "type", lit "description", lit "scheme", lit "bearerFormat", lit "in", lit "name"].Nodup; decide +kernel) (by
      simp only [List.mem_cons, List.not_mem_nil, or_false, forall_eq_or_imp, forall_eq]
      exact ⟨s0 _, s0 _, s0 _, s0 _, s0 _, s0 _⟩)
  have hs : ∀ {α : Type} (a : α), SortedKeys [(lit "jwt", a)] := fun a => by simp [SortedKeys]
  have k1 : marshal (X := X) O (.map .str (.ptr (.struct securityTy))) (some [(lit "jwt", some jwtVal)] : Option (List (Str × Option (FVals X securityTy)))) = .ok (.map [(lit "jwt", nj)]) :=
    map_says (X := X) O (t := .ptr (.struct securityTy)) [(lit "jwt", some jwtVal)] (fun _ => nj) (hs _) (fun e he => by obtain rfl := List.mem_singleton.mp he; exact ptr_struct O _ j1)
  have k2 : Fits 2 (.map [(lit "jwt", nj)]) := fits_map _ (hs _) (fun e he => by obtain rfl := List.mem_singleton.mp he; exact j2)
  obtain ⟨co, l1, l2, l3, l4⟩ := struct_says (X := X) O (d := 2 * n + 2) (fs := componentTy (n + 1))
    (v := ((some [(lit "jwt", some jwtVal)], none, (if s.schemas = [] then none else some (propsVal X (n + 1) s.schemas)), ()) :
        Option (List (Str × Option (FVals X securityTy))) × Option (List (Str × Option (FVals X (parameterTy (n + 1))))) × Option (List (Str × Option (FVals X (schemaTy (n + 1))))) × Unit))
    [⟨lit "SecurityScheme", lit "securitySchemes", false, _⟩, ⟨lit "Parameters", lit "parameters", true, .nil⟩, ⟨lit "Schemas", lit "schemas", true, nc⟩]
    (mf_cons O _ _ _ (by decide +kernel) k1 (mf_cons O _ _ _ (by decide +kernel) rfl (mf_cons O _ _ _ (by decide +kernel) c1 rfl))) (by show [lit "securitySchemes", lit "parameters", lit "schemas"].Nodup; decide +kernel) (by
      simp only [List.mem_cons, List.not_mem_nil, or_false, forall_eq_or_imp, forall_eq]
      exact ⟨fits_mono k2 (by omega), fits_mono fits_nil (by omega), c2⟩)
  obtain ⟨li, t1, t2, -, -⟩ := struct_says (X := X) O (d := 0) (fs := licenseTy) (v := ((lit "private", ()) : Str × Unit)) [⟨lit "Name", lit "name", true, .str (lit "private")⟩]
    (mf_cons O _ _ _ (by decide +kernel) rfl rfl) (by simp) (fun r hr => by obtain rfl := List.mem_singleton.mp hr; exact s0 _)
  obtain ⟨inf, u1, u2, -, u4⟩ := struct_says (X := X) O (d := 1) (fs := infoTy) (v := ((lit "0.0", s.title, ((lit "private", ()) : Str × Unit), ()) : Str × Str × FVals X licenseTy × Unit))
    [⟨lit "Version", lit "version", true, .str (lit "0.0")⟩, ⟨lit "Title", lit "title", true, .str s.title⟩, ⟨lit "License", lit "license", true, li⟩]
    (mf_cons O _ _ _ (by decide +kernel) rfl (mf_cons O _ _ _ (by decide +kernel) rfl (mf_cons O _ _ _ (by decide +kernel) t1 rfl))) (by show [lit "version", lit "title", lit "license"].Nodup; decide +kernel) (by
      simp only [List.mem_cons, List.not_mem_nil, or_false, forall_eq_or_imp, forall_eq]
      exact ⟨fits_mono (s0 _) (by omega), fits_mono (s0 _) (by omega), t2⟩)
  obtain ⟨nd, v1, v2, -, v4⟩ := struct_says (X := X) O (d := 2 * n + 8) (fs := serviceTy (n + 1)) (v := serviceVal n s)
    [⟨lit "OpenAPI", lit "openapi", false, .str (lit "3.0.0")⟩, ⟨lit "Info", lit "info", false, inf⟩, ⟨lit "Paths", lit "paths", false, .map m⟩, ⟨lit "Components", lit "components", false, co⟩]
    (mf_cons O _ _ _ (by decide +kernel) rfl (mf_cons O _ _ _ (by decide +kernel) u1 (mf_cons O _ _ _ (by decide +kernel) p1 (mf_cons O _ _ _ (by decide +kernel) l1 rfl))))
    (by show [lit "openapi", lit "info", lit "paths", lit "components"].Nodup; decide +kernel) (by
      simp only [List.mem_cons, List.not_mem_nil, or_false, forall_eq_or_imp, forall_eq]
      exact ⟨fits_mono (s0 _) (by omega), fits_mono u2 (by omega), p2, fits_mono l2 (by omega)⟩)
  refine ⟨nd, ptr_struct O _ v1, v2, v4 "openapi", ?_, ⟨m', (v4 "paths").trans (congrArg some p3), p4⟩, ?_⟩
  · rw [dig_cons (m := inf.norm) _ _ _ (v4 "info")]
    show (member inf.norm "title").bind (fun m => some m) = _
    rw [bind_some, u4 "title"]
    exact opt_str s.title
  · have hd : dig nd.norm ["components", "schemas"] = opt nc := by
      rw [dig_cons (m := co.norm) _ _ _ (v4 "components")]
      show (member co.norm "schemas").bind (fun m => some m) = _
      rw [bind_some, l4 "schemas"]
      rfl
    rw [hd]
    exact c3

/-! ### lemmas: the documentation of registered handlers -/

theorem allSorted_iff : ∀ ps : List (Str × Schema), AllSorted ps ↔ ∀ e ∈ ps, Sorted e.2
  | [] => by simp [AllSorted]
  | (k, s) :: ps => by simp [AllSorted, allSorted_iff ps]

theorem propsDeep_le (B : Nat) : ∀ ps : List (Str × Schema), propsDeep ps ≤ B ↔ ∀ e ∈ ps, deep e.2 ≤ B
  | [] => by simp [propsDeep]
  | (k, s) :: ps => by simp [propsDeep, Nat.max_le, propsDeep_le B ps]

/-- Names of their own, and not nested deeper than this. -/
def Nice (B : Nat) (ps : List (Str × Schema)) : Prop := SortedKeys ps ∧ AllSorted ps ∧ propsDeep ps ≤ B

theorem nice_nil (B : Nat) : Nice B [] := ⟨by simp [SortedKeys], by simp [AllSorted], by simp [propsDeep]⟩

theorem nice_mono {B C : Nat} {ps : List (Str × Schema)} (h : Nice B ps) (hl : B ≤ C) : Nice C ps := ⟨h.1, h.2.1, Nat.le_trans h.2.2 hl⟩

theorem nice_insert {B : Nat} {ps : List (Str × Schema)} (k : Str) {s : Schema} (h : Nice B ps) (hs : Sorted s) (hd : deep s ≤ B) : Nice B (insertKey k s ps) := by
  refine ⟨sorted_insertKey _ _ _ h.1, (allSorted_iff _).mpr fun e he => ?_, (propsDeep_le _ _).mpr fun e he => ?_⟩
  · rcases mem_insertKey he with rfl | he
    · exact hs
    · exact (allSorted_iff _).mp h.2.1 e he
  · rcases mem_insertKey he with rfl | he
    · exact hd
    · exact (propsDeep_le _ _).mp h.2.2 e he

/-- However a call ends, the table is fine, and so is what it returns. -/
def Ends {α : Type} (B : Nat) (P : α → Prop) : R α → Prop
  | .ok a tab => P a ∧ Nice B tab
  | .err tab | .errNil tab | .panic tab => Nice B tab
  | .loop => True

theorem ends_bind {α β : Type} {B : Nat} {P : α → Prop} {Q : β → Prop} {r : R α} {f : α → Table → R β} (h : Ends B P r) (hf : ∀ a tab, P a → Nice B tab → Ends B Q (f a tab)) : Ends B Q (r.bind f) := by
  cases r with
  | ok a tab => exact hf a tab h.1 h.2
  | err tab => exact h
  | errNil tab => exact h
  | panic tab => exact h
  | loop => trivial

/-- A schema with properties with names of their own, nested no deeper than this. -/
def Fine (n : Nat) (s : Schema) : Prop := Sorted s ∧ deep s ≤ n

theorem ends_fin {B n : Nat} (doc : Str) {r : R Schema} (h : Ends B (Fine n) r) : Ends B (Fine n) (fin doc r) := by
  cases r with
  | ok s tab =>
    refine ⟨?_, h.2⟩
    have h := h.1
    cases s <;> simp [Fine, Schema.finish, Sorted, deep] at h ⊢ <;> exact h
  | err tab => exact h
  | errNil tab => exact h
  | panic tab => exact h
  | loop => trivial

theorem fields_ends {B n : Nat} (hB : n + 1 ≤ B) (sub : Str → OTy → Table → R Schema) (hsub : ∀ doc t tab, Nice B tab → Ends B (Fine n) (sub doc t tab)) (def_ : Option (Str × Str)) :
    ∀ (l : List Field) (ps : List (Str × Schema)) (tab : Table), Nice n ps → Nice B tab → Ends B (Nice n) (fieldsWith sub def_ l ps tab)
  | [], ps, tab, hp, ht => ⟨hp, ht⟩
  | (f, doc, t) :: l, ps, tab, hp, ht => by
    rw [fieldsWith]
    refine ends_bind (hsub doc t tab ht) fun s tab hs ht => ?_
    have hp' : Nice n (insertKey (propName f) s ps) := nice_insert _ hp hs.1 hs.2
    refine fields_ends hB sub hsub def_ l _ _ hp' ?_
    cases def_ with
    | none => exact ht
    | some d => exact nice_insert _ ht (by rw [Sorted]; exact ⟨hp'.1, hp'.2.1⟩) (by rw [deep]; have := hp'.2.2; omega)

theorem body_ends (E : Env) (B : Nat) : ∀ (n : Nat), n ≤ B → ∀ (orig t : OTy) (tab : Table), Nice B tab → Ends B (Fine n) (body E n orig t tab)
  | 0, _, _, _, _, _ => trivial
  | n + 1, hB, orig, t, tab, ht => by
    have ih : ∀ orig t tab, Nice B tab → Ends B (Fine n) (body E n orig t tab) := body_ends E B n (by omega)
    have up : ∀ r : R Schema, Ends B (Fine n) r → Ends B (Fine (n + 1)) r := by
      intro r h
      cases r with
      | ok s tab => exact ⟨⟨h.1.1, Nat.le_succ_of_le h.1.2⟩, h.2⟩
      | err tab => exact h
      | errNil tab => exact h
      | panic tab => exact h
      | loop => trivial
    have hsub : ∀ (doc : Str) (t : OTy) (tab : Table), Nice B tab → Ends B (Fine n) (fin doc (body E n t t tab)) := fun doc t tab ht => ends_fin doc (ih t t tab ht)
    have href : ∀ key : Str, Fine (n + 1) (.ref key []) := fun key => ⟨by simp [Sorted], by simp [deep]⟩
    cases t with
    | prim ty fmt => exact ⟨⟨by simp [Sorted], by simp [deep]⟩, ht⟩
    | bad => exact ht
    | ptr t => exact up _ (ih orig t tab ht)
    | arr t =>
      rw [body]
      exact ends_bind (ends_fin [] (ih t t tab ht)) fun s tab hs ht => ⟨⟨by rw [Sorted]; exact hs.1, by rw [deep]; have := hs.2; omega⟩, ht⟩
    | map k t =>
      rw [body]
      exact ends_bind (ends_fin [] (ih k k tab ht)) fun sk tab _ ht => ends_bind (ends_fin [] (ih t t tab ht)) fun s tab hs ht =>
        ⟨⟨by rw [Sorted]; exact hs.1, by rw [deep]; have := hs.2; omega⟩, ht⟩
    | anon fs =>
      rw [body]
      exact ends_bind (fields_ends hB _ hsub none fs [] tab (nice_nil n) ht) fun ps tab hp ht => ⟨⟨by rw [Sorted]; exact ⟨hp.1, hp.2.1⟩, by rw [deep]; have := hp.2.2; omega⟩, ht⟩
    | ref i =>
      simp only [body]
      split
      · exact up _ (ih orig _ tab ht)
      · split
        · exact ⟨href _, ht⟩
        · refine ends_bind (fields_ends hB _ hsub _ _ [] _ (nice_nil n) ?_) fun ps tab _ ht => ⟨href _, ht⟩
          exact nice_insert _ ht (by simp [Sorted, SortedKeys, AllSorted]) (by simp [deep, propsDeep]; omega)

theorem docFields_ends (E : Env) (n : Nat) (ty : Nat → Str × OTy) : ∀ (l : List HField) (ps : List (Str × Schema)) (tab : Table), Nice n ps → Nice n tab → Ends n (Nice n) (docFields E n ty l ps tab)
  | [], _, _, hp, ht => ⟨hp, ht⟩
  | f :: l, ps, tab, hp, ht => by
    rw [docFields]
    exact ends_bind (ends_fin _ (body_ends E n n (Nat.le_refl _) _ _ tab ht)) fun s tab hs ht => docFields_ends E n ty l _ _ (nice_insert _ hp hs.1 hs.2) ht

theorem update_ends (E : Env) (n : Nat) (ty : Nat → Str × OTy) (h : AHandler) (paths : Str → Option PathItem) (tab : Table) (ht : Nice n tab) :
    Ends n (fun d : Documented => Nice n d.item.ins ∧ Nice n d.item.outs) (update E n ty h paths tab) :=
  ends_bind (docFields_ends E n ty h.ins [] tab (nice_nil n) ht) fun _ tab hi ht => ends_bind (docFields_ends E n ty h.outs [] tab (nice_nil n) ht) fun _ _ ho ht => ⟨⟨hi, ho⟩, ht⟩

/-- Every service is fine. -/
def Held (n : Nat) (s : Service) : Prop := SortedKeys s.paths ∧ (∀ e ∈ s.paths, DocOk (n + 1) e.2) ∧ Nice n s.schemas

theorem held_insert {n : Nat} {s : Service} (h : Held n s) (p : Str) (d : Doc) (hd : DocOk (n + 1) d) : Held n { s with paths := insertKey p d s.paths } := by
  refine ⟨sorted_insertKey _ _ _ h.1, fun e he => ?_, h.2.2⟩
  rcases mem_insertKey he with rfl | he
  · exact hd
  · exact h.2.1 e he

theorem held_urls {n : Nat} (d : Doc) (hd : DocOk (n + 1) d) : ∀ (us : List Str) (s : Service), Held n s → Held n { s with paths := us.foldl (fun ps u => insertKey u d ps) s.paths }
  | [], _, h => h
  | u :: us, _, h => held_urls d hd us _ (held_insert h u d hd)

theorem held_add (E : Env) (n : Nat) (s : Service) (r : Reg) (h : Held n s) : Held n (s.add E n r) := by
  cases r with
  | handle p => exact held_insert h p _ trivial
  | request p => exact held_insert h p _ trivial
  | api pkg name hd ty =>
    have he := update_ends E n ty hd (fun _ => none) s.schemas h.2.2
    simp only [Service.add]
    cases hu : update E n ty hd (fun _ => none) s.schemas with
    | ok d tab =>
      rw [hu] at he
      obtain ⟨⟨hi, ho⟩, ht⟩ := he
      have hk : DocOk (n + 1) (.api pkg name d.item) := ⟨hi.1, hi.2.1, Nat.lt_succ_of_le hi.2.2, ho.1, ho.2.1, Nat.lt_succ_of_le ho.2.2⟩
      exact held_urls _ hk hd.urls { s with schemas := tab } ⟨h.1, h.2.1, ht⟩
    | err tab => rw [hu] at he; exact ⟨h.1, h.2.1, he⟩
    | errNil tab => rw [hu] at he; exact ⟨h.1, h.2.1, he⟩
    | panic tab => rw [hu] at he; exact ⟨h.1, h.2.1, he⟩
    | loop => exact h

theorem held_of (E : Env) (n : Nat) (title : Str) (l : List Reg) : Held n (Service.of E n title l) := by
  have : ∀ (l : List Reg) (s : Service), Held n s → Held n (l.foldl (Service.add E n) s) := by
    intro l
    induction l with
    | nil => exact fun _ h => h
    | cons r l ih => exact fun s h => ih _ (held_add E n s r h)
  exact this l _ ⟨by simp [SortedKeys], by simp, nice_nil n⟩

/-! ### C147 -/

/-- C147: what is served reads as a document that describes all that was registered, in whatever order the maps are visited. -/
theorem C147_served (hX : Laws X) (O : Order) (E : Env) (n : Nat) (hn : 2 * n + 11 ≤ maxDepth) (title : Str) (l : List Reg) :
    ∃ t doc, served (X := X) O (n + 1) (Service.of E n title l) = .ok t ∧ decode (X := X) t = some (some doc) ∧ Describes (Service.of E n title l) doc := by
  obtain ⟨h1, h2, h3⟩ := held_of E n title l
  obtain ⟨nd, m1, ⟨⟨m2, m3⟩, m4⟩, m5⟩ := service_says (X := X) O (n + 1) (Service.of E n title l) ⟨h1, h2, h3.1, h3.2.1, Nat.lt_succ_of_le (Nat.le_succ_of_le h3.2.2)⟩
  have hd : nd.depth ≤ maxDepth := by omega
  have he := m3 hd
  have e1 : encode nd = .ok nd.text := by unfold encode; rw [if_pos he]
  have e2 : encodeIndent nd = .ok (nd.indented 0) := by unfold encodeIndent; rw [if_pos he]
  refine ⟨nd.indented 0, nd.norm, ?_, (C113_indent hX nd m2 hd _ _ e1 e2).trans (C39_round_trip hX nd m2 _ e1 hd), m5⟩
  unfold served
  rw [m1, Ws.bind_ok_eq, e2]

theorem pathsSay_lookup (p : Str) : ∀ (ps : List (Str × Doc)) (m : List (Str × Node X)), PathsSay ps m →
    match lookupKey p ps with | some d => ∃ n, lookupKey p m = some n ∧ SaysPath d n | none => lookupKey p m = none
  | [], m, h => by rw [PathsSay] at h; subst h; rfl
  | (k, d) :: ps, m, h => by
    rw [PathsSay] at h
    obtain ⟨n, m', rfl, h1, h2⟩ := h
    by_cases hk : p = k
    · simp only [lookupKey, hk, if_true]
      exact ⟨n, rfl, h1⟩
    · simp only [lookupKey, hk, if_false]
      exact pathsSay_lookup p ps m' h2

theorem allSay_lookup (p : Str) : ∀ (ps : List (Str × Schema)) (m : List (Str × Node X)), AllSay ps m →
    match lookupKey p ps with | some d => ∃ n, lookupKey p m = some n ∧ Says d n | none => lookupKey p m = none
  | [], m, h => by rw [AllSay] at h; subst h; rfl
  | (k, d) :: ps, m, h => by
    rw [AllSay] at h
    obtain ⟨n, m', rfl, h1, h2⟩ := h
    by_cases hk : p = k
    · simp only [lookupKey, hk, if_true]
      exact ⟨n, rfl, h1⟩
    · simp only [lookupKey, hk, if_false]
      exact allSay_lookup p ps m' h2

theorem allSay_has (k : Str) (ps : List (Str × Schema)) (m : List (Str × Node X)) (h : AllSay ps m) : (∃ n, lookupKey k m = some n) ↔ ∃ s, lookupKey k ps = some s := by
  have := allSay_lookup k ps m h
  split at this
  · rename_i d hd
    obtain ⟨n, hn, -⟩ := this
    simp [hn, hd]
  · rename_i hd
    simp [this, hd]

theorem lookup_urls (d : Doc) (p : Str) : ∀ (us : List Str) (ps : List (Str × Doc)), lookupKey p (us.foldl (fun ps u => insertKey u d ps) ps) = if p ∈ us then some d else lookupKey p ps
  | [], ps => by simp
  | u :: us, ps => by
    rw [List.foldl_cons, lookup_urls d p us, lookup_insertKey]
    by_cases h1 : p ∈ us
    · simp [h1]
    · by_cases h2 : p = u
      · simp [h2]
      · simp [h1, h2]

/-- C147: what is said about a path is what the last registration for it says; others do not change it. A failed one says nothing. -/
theorem C147_last (E : Env) (n : Nat) (title : Str) (l : List Reg) (p : Str) :
    Service.of E n title [] = ⟨title, [], []⟩ ∧ (∀ q, lookupKey p (Service.of E n title (l ++ [.handle q])).paths = if p = q then some .bare else lookupKey p (Service.of E n title l).paths) ∧
    (∀ q, lookupKey p (Service.of E n title (l ++ [.request q])).paths = if p = q then some .request else lookupKey p (Service.of E n title l).paths) ∧
    (∀ pkg name h ty, lookupKey p (Service.of E n title (l ++ [.api pkg name h ty])).paths =
      match update E n ty h (fun _ => none) (Service.of E n title l).schemas with
      | .ok d _ => if p ∈ h.urls then some (.api pkg name d.item) else lookupKey p (Service.of E n title l).paths
      | _ => lookupKey p (Service.of E n title l).paths) ∧
    (Service.of E n title l).title = title := by
  refine ⟨rfl, fun q => ?_, fun q => ?_, fun pkg name h ty => ?_, ?_⟩
  · simp only [Service.of, List.foldl_append, List.foldl_cons, List.foldl_nil, Service.add, lookup_insertKey]
  · simp only [Service.of, List.foldl_append, List.foldl_cons, List.foldl_nil, Service.add, lookup_insertKey]
  · have e : Service.of E n title (l ++ [.api pkg name h ty]) = (Service.of E n title l).add E n (.api pkg name h ty) := by
      simp only [Service.of, List.foldl_append, List.foldl_cons, List.foldl_nil]
    rw [e, Service.add]
    cases hu : update E n ty h (fun _ => none) (Service.of E n title l).schemas with
    | ok d tab => exact lookup_urls _ p h.urls _
    | err tab => rfl
    | errNil tab => rfl
    | panic tab => rfl
    | loop => rfl
  · have : ∀ (l : List Reg) (s : Service), (l.foldl (Service.add E n) s).title = s.title := by
      intro l
      induction l with
      | nil => exact fun _ => rfl
      | cons r l ih =>
        intro s
        rw [List.foldl_cons, ih]
        cases r with
        | handle p => rfl
        | request p => rfl
        | api pkg name h ty =>
          simp only [Service.add]
          split <;> rfl
    exact this l _

/-- C147: after an API is registered, a reader of the document finds under its urls: as properties of the request those of its inputs, as required ones those that are, as properties of the
response its outputs; and a token is asked for if and only if it has a field for one. What is missing is whether there has to be a body. -/
theorem C147_api_partial [DecidableEq X.F] [DecidableEq X.T] (hX : Laws X) (O : Order) (E : Env) (n : Nat) (hn : 2 * n + 11 ≤ maxDepth) (title : Str) (l : List Reg) (U : Str → Option Str) (fs : Fields)
    (tmpl : Option (Val X (.struct fs))) (h : AHandler) (hh : newHandler U (.ptr (.struct fs) tmpl) = some h) (pkg name : Str) (ty : Nat → Str × OTy) (d : Documented) (tab : Table)
    (hd : update E n ty h (fun _ => none) (Service.of E n title l).schemas = .ok d tab) :
    ∃ t doc m, served (X := X) O (n + 1) (Service.of E n title (l ++ [.api pkg name h ty])) = .ok t ∧ decode (X := X) t = some (some doc) ∧ member doc "paths" = some (.map m) ∧
      ∀ f ∈ fs.infos, f.url ≠ [] → ∃ u p i o pi po, U f.url = some u ∧ lookupKey u m = some (.map [(lit "post", p)]) ∧
        dig p ["requestBody", "content", "application/json", "schema"] = some i ∧ member i "properties" = some (.map pi) ∧
        (∀ k, (∃ s, lookupKey k pi = some s) ↔ ∃ f ∈ fs.infos, IsIn f ∧ tagName f = k) ∧
        (∀ k, (∃ l, member i "required" = some (.list l) ∧ .str k ∈ l) ↔ ∃ f ∈ fs.infos, IsIn f ∧ IsRequired f ∧ tagName f = k) ∧
        dig p ["responses", "200", "content", "application/json", "schema"] = some o ∧ member o "properties" = some (.map po) ∧
        (∀ k, (∃ s, lookupKey k po = some s) ↔ ∃ f ∈ fs.infos, IsOut f ∧ tagName f = k) ∧
        (member p "security" = none ↔ ∀ f ∈ fs.infos, ¬ IsAuth f) := by
  obtain ⟨t, doc, h1, h2, -, -, ⟨m, h3, h4⟩, -⟩ := C147_served (X := X) hX O E n hn title (l ++ [.api pkg name h ty])
  refine ⟨t, doc, m, h1, h2, h3, fun f hf hu => ?_⟩
  obtain ⟨d1, d2, d3, d4, -, d6, -⟩ := C88_documented U fs tmpl h hh E n ty (fun _ => none) _ tab d hd
  obtain ⟨u, hu, hp⟩ := d6 f hf hu
  have hin : u ∈ h.urls := by
    obtain ⟨ins, t1, k1, hd⟩ := bind_isOk hd
    obtain ⟨outs, t2, k2, hd⟩ := bind_isOk hd
    injection hd with hd ht
    subst hd
    by_cases hc : u ∈ h.urls
    · exact hc
    · simp [hc] at hp
  have hl := (C147_last E n title l u).2.2.2.1 pkg name h ty
  rw [hd] at hl
  simp only [hin, if_true] at hl
  have := pathsSay_lookup u _ m h4
  rw [hl] at this
  obtain ⟨nd, q1, p, rfl, -, ⟨i, i1, -, i2, pi, i3, i4⟩, ⟨o, o1, -, -, po, o3, o4⟩, sec, -⟩ := this
  refine ⟨u, p, i, o, pi, po, hu, q1, i1, i3, fun k => (allSay_has k _ _ i4).trans (d1 k), fun k => ?_, o1, o3, fun k => (allSay_has k _ _ o4).trans (d3 k), ?_⟩
  · rw [← d2 k, i2]
    by_cases hr : d.item.required = []
    · simp [hr]
    · simp only [if_neg hr, Option.some.injEq, Node.list.injEq]
      constructor
      · rintro ⟨_, rfl, hm⟩
        obtain ⟨s, hs, e⟩ := List.mem_map.mp hm
        injection e with e
        exact e ▸ hs
      · exact fun hk => ⟨_, rfl, List.mem_map.mpr ⟨k, hk, rfl⟩⟩
  · rw [sec, ← d4]
    match d.item.security with
    | none => simp [access]
    | some true => simp [access]
    | some false => simp [access]

/-- A registration that succeeds. -/
def Succeeds (E : Env) (n : Nat) (s : Service) : Reg → Prop
  | .handle _ | .request _ => True
  | .api _ _ h ty => ∃ d tab, update E n ty h (fun _ => none) s.schemas = .ok d tab

/-- Every registered API got its documentation. -/
def Works (E : Env) (n : Nat) : Service → List Reg → Prop
  | _, [] => True
  | s, r :: l => Succeeds E n s r ∧ Works E n (s.add E n r) l

theorem resolves (E : Env) (n : Nat) : ∀ (l : List Reg) (s : Service), Works E n s l → Closed s.schemas →
    (∀ e ∈ s.paths, ∀ pkg name item, e.2 = .api pkg name item → ∀ r ∈ Schema.propRefs item.ins ++ Schema.propRefs item.outs, Has s.schemas r) →
    Closed (l.foldl (Service.add E n) s).schemas ∧ ∀ e ∈ (l.foldl (Service.add E n) s).paths, ∀ pkg name item, e.2 = .api pkg name item →
      ∀ r ∈ Schema.propRefs item.ins ++ Schema.propRefs item.outs, Has (l.foldl (Service.add E n) s).schemas r
  | [], _, _, hc, hp => ⟨hc, hp⟩
  | r :: l, s, hw, hc, hp => by
    rw [List.foldl_cons]
    rw [Works] at hw
    cases r with
    | handle q =>
      refine resolves E n l _ hw.2 hc fun e he pkg name item hi => ?_
      rcases mem_insertKey he with rfl | he
      · cases hi
      · exact hp e he pkg name item hi
    | request q =>
      refine resolves E n l _ hw.2 hc fun e he pkg name item hi => ?_
      rcases mem_insertKey he with rfl | he
      · cases hi
      · exact hp e he pkg name item hi
    | api pkg name h ty =>
      obtain ⟨⟨d, tab, hd⟩, hw⟩ := hw
      obtain ⟨c1, c2, c3⟩ := C88_resolves h E n ty _ _ tab hc d hd
      have e : s.add E n (.api pkg name h ty) = { s with paths := h.urls.foldl (fun ps u => insertKey u (.api pkg name d.item) ps) s.paths, schemas := tab } := by rw [Service.add, hd]
      rw [e] at hw ⊢
      refine resolves E n l _ hw c1 fun e he pkg' name' item hi => ?_
      have key : ∀ (us : List Str) (ps : List (Str × Doc)), ∀ e ∈ us.foldl (fun ps u => insertKey u (.api pkg name d.item) ps) ps, e.2 = .api pkg name d.item ∨ e ∈ ps := by
        intro us
        induction us with
        | nil => exact fun _ _ h => .inr h
        | cons u us ih =>
          intro ps e he
          rcases ih _ e he with he | he
          · exact .inl he
          · rcases mem_insertKey he with rfl | he
            · exact .inl rfl
            · exact .inr he
      rcases key h.urls s.paths e he with he | he
      · rw [he] at hi
        injection hi with _ _ hi
        subst hi
        exact c3
      · exact fun r hr => c2.has (hp e he pkg' name' item hi r hr)

/-- C147: a reader finds every schema that is referred to, by a path or by another schema. -/
theorem C147_resolves (hX : Laws X) (O : Order) (E : Env) (n : Nat) (hn : 2 * n + 11 ≤ maxDepth) (title : Str) (l : List Reg) (hw : Works E n ⟨title, [], []⟩ l) :
    ∃ t doc, served (X := X) O (n + 1) (Service.of E n title l) = .ok t ∧ decode (X := X) t = some (some doc) ∧
      ∀ r, ((∃ e ∈ (Service.of E n title l).paths, ∃ pkg name item, e.2 = .api pkg name item ∧ r ∈ Schema.propRefs item.ins ++ Schema.propRefs item.outs) ∨
          ∃ k s, lookupKey k (Service.of E n title l).schemas = some s ∧ r ∈ s.refs) →
        ∃ m s, dig doc ["components", "schemas"] = some (.map m) ∧ lookupKey r m = some s := by
  obtain ⟨t, doc, h1, h2, -, -, -, h3⟩ := C147_served (X := X) hX O E n hn title l
  obtain ⟨r1, r2⟩ := resolves E n l ⟨title, [], []⟩ hw (fun k s h => by cases h) (fun e he => by cases he)
  refine ⟨t, doc, h1, h2, fun r hr => ?_⟩
  have hh : Has (Service.of E n title l).schemas r := by
    rcases hr with ⟨e, he, pkg, name, item, hi, hr⟩ | ⟨k, s, hk, hr⟩
    · exact r2 e he pkg name item hi r hr
    · exact r1 k s hk r hr
  by_cases he : (Service.of E n title l).schemas = []
  · obtain ⟨s, hs⟩ := hh
    rw [he] at hs
    cases hs
  · rw [if_neg he] at h3
    obtain ⟨m, m1, m2⟩ := h3
    obtain ⟨s, hs⟩ := (allSay_has r _ _ m2).mpr hh
    exact ⟨m, s, m1, hs⟩

/-- C147 is violated by the body: the document says of every API that the body may be left out, also of one with a required input, which then refuses the request. -/
theorem C147_body_violated [DecidableEq X.F] [DecidableEq X.T] (hX : Laws X) (O : Order) (E : Env) (n : Nat) (hn : 2 * n + 11 ≤ maxDepth) (title : Str) (l : List Reg) (U : Str → Option Str) (fs : Fields)
    (tmpl : Option (Val X (.struct fs))) (h : AHandler) (hh : newHandler U (.ptr (.struct fs) tmpl) = some h) (pkg name : Str) (ty : Nat → Str × OTy) (d : Documented) (tab : Table)
    (hd : update E n ty h (fun _ => none) (Service.of E n title l).schemas = .ok d tab) (hr : ∃ f ∈ fs.infos, IsIn f ∧ IsRequired f) (hu : h.urls ≠ []) :
    (∃ t doc m u p, served (X := X) O (n + 1) (Service.of E n title (l ++ [.api pkg name h ty])) = .ok t ∧ decode (X := X) t = some (some doc) ∧ member doc "paths" = some (.map m) ∧ u ∈ h.urls ∧
      lookupKey u m = some (.map [(lit "post", p)]) ∧ dig p ["requestBody", "required"] = some (.bool false)) ∧
    ∀ (now : FVals X fs) (uid : Option (Node X)) (obj : FVals X fs), recv O h fs now ⟨[], uid⟩ ≠ .ok obj := by
  constructor
  · obtain ⟨t, doc, h1, h2, -, -, ⟨m, h3, h4⟩, -⟩ := C147_served (X := X) hX O E n hn title (l ++ [.api pkg name h ty])
    obtain ⟨u, us, hus⟩ := List.exists_cons_of_ne_nil hu
    have hin : u ∈ h.urls := by simp [hus]
    have hl := (C147_last E n title l u).2.2.2.1 pkg name h ty
    rw [hd] at hl
    simp only [hin, if_true] at hl
    have := pathsSay_lookup u _ m h4
    rw [hl] at this
    obtain ⟨nd, q1, p, rfl, -, -, -, -, hb⟩ := this
    exact ⟨t, doc, m, u, p, h1, h2, h3, hin, q1, hb⟩
  · intro now uid obj ho
    obtain ⟨f, hf, hi, hq⟩ := hr
    have hk := ((C88_documented U fs tmpl h hh E n ty _ _ tab d hd).2.1 (tagName f)).mpr ⟨f, hf, hi, hq, rfl⟩
    obtain ⟨nd, hnd⟩ := ((C88_kept U fs tmpl h hh E n ty _ _ tab d hd O now).1 _ obj ho).1 _ hk
    cases hnd

end

/-! ### concrete cases -/

/-- An API that takes a node of a list and gives a number (An example, not in /repo; see api/handler.go L121-182.) -/
def pushReg : Reg := .api (lit "a/b") (lit "Push") { ins := [⟨0, { name := lit "list", required := true }⟩], outs := [⟨1, { name := lit "len" }⟩], urls := [lit "/push"], auth := some ⟨2, { name := lit "uid" }⟩ }
  fun i => if i = 0 then (lit "what to add", .ptr (.ref 0)) else ([], .prim (lit "integer") none)

/-- C147: the text of a schema. -/
example : (marshal (X := XT) sortedOrder (.struct (schemaTy 3)) (val XT 3 (.array (lit "[]N") [] (.ref (lit "a_N") (lit "a node"))))).bind (fun n => match encode n with | .ok t => .ok t | .error _ => .panic) =
    .ok (lit "{\"type\":\"array\",\"format\":\"[]N\",\"items\":{\"description\":\"a node\",\"allOf\":[{\"$ref\":\"#/components/schemas/a_N\"}]}}") := by decide +kernel

/-- C147: the text of the documentation of a path. -/
example : (marshal (X := XT) sortedOrder (.struct (pathTy 1)) (pathVal 0 .bare)).bind (fun n => match encode n with | .ok t => .ok t | .error _ => .panic) = .ok (lit "{}") := by decide +kernel

/-- C147: what is said about the API. -/
example : (Service.of nodeEnv 5 (lit "test") [.handle (lit "/ws"), pushReg]).paths = [(lit "/push", .api (lit "a/b") (lit "Push")
    ⟨[(lit "list", .ref (lit "a_b_Node") (lit "what to add"))], [lit "list"], [(lit "len", .leaf (lit "integer") (lit "int") [])], some false⟩), (lit "/ws", .bare)] := rfl

example : Works nodeEnv 5 ⟨lit "test", [], []⟩ [.handle (lit "/ws"), pushReg] := ⟨trivial, ⟨_, _, rfl⟩, trivial⟩

/-- C147: the same path again. -/
example : (Service.of nodeEnv 5 [] [.handle (lit "/ws"), .request (lit "/a"), .request (lit "/ws")]).paths = [(lit "/a", .request), (lit "/ws", .request)] := rfl

end Verif.Openapi.Served

import Verif.Api.Model
import Verif.Enc.RoundLemmas
import Verif.Enc.GoodLemmas
/-!
# Helper lemmas on api handlers
-/
set_option autoImplicit false
namespace Verif.Api
open Verif.Strconv Verif.Enc

variable {X : Ext}

/-! ### fields by index -/

theorem getField_zero : ∀ (fs : Fields) (v : FVals X fs) (j : Nat) (f : FieldInfo) (t : Ty) (x : Val X t), getField fs j v = some (f, ⟨t, x⟩) →
    getField fs j (zeroFields X fs) = some (f, ⟨t, zero X t⟩)
  | .nil, _, _, _, _, _, h => by cases h
  | .cons g u fs, (y, ys), 0, f, t, x, h => by
    simp only [getField, Option.some.injEq, Prod.mk.injEq] at h
    obtain ⟨rfl, h⟩ := h
    obtain ⟨rfl, _⟩ := Sigma.mk.inj h
    rfl
  | .cons _ _ fs, (_, ys), j + 1, f, t, x, h => getField_zero fs ys j f t x h

theorem getField_any : ∀ (fs : Fields) (v w : FVals X fs) (j : Nat) (f : FieldInfo) (t : Ty) (x : Val X t), getField fs j v = some (f, ⟨t, x⟩) →
    ∃ y, getField fs j w = some (f, ⟨t, y⟩)
  | .nil, _, _, _, _, _, _, h => by cases h
  | .cons g u fs, (y, ys), (z, zs), 0, f, t, x, h => by
    simp only [getField, Option.some.injEq, Prod.mk.injEq] at h
    obtain ⟨rfl, h⟩ := h
    obtain ⟨rfl, _⟩ := Sigma.mk.inj h
    exact ⟨z, rfl⟩
  | .cons _ _ fs, (_, ys), (_, zs), j + 1, f, t, x, h => getField_any fs ys zs j f t x h

/-- Two descriptions of the same field agree. -/
theorem getField_inj {fs : Fields} {v : FVals X fs} {j : Nat} {f f' : FieldInfo} {t : Ty} {x y : Val X t} (h : getField fs j v = some (f, ⟨t, x⟩))
    (h' : getField fs j v = some (f', ⟨t, y⟩)) : f = f' ∧ x = y := by
  rw [h] at h'
  simp only [Option.some.injEq, Prod.mk.injEq] at h'
  obtain ⟨h1, h2⟩ := h'
  exact ⟨h1, eq_of_heq (Sigma.mk.inj h2).2⟩

theorem getField_ext : ∀ (fs : Fields) (v w : FVals X fs), (∀ j, getField fs j v = getField fs j w) → v = w
  | .nil, _, _, _ => rfl
  | .cons f t fs, (x, xs), (y, ys), h => by
    have h0 := h 0
    simp only [getField, Option.some.injEq, Prod.mk.injEq, true_and] at h0
    have hxy := eq_of_heq (Sigma.mk.inj h0).2
    have hs := getField_ext fs xs ys (fun j => h (j + 1))
    subst hxy; subst hs; rfl

theorem modField_ok (g : FieldInfo → (t : Ty) → Val X t → Res (Val X t)) : ∀ (fs : Fields) (i : Nat) (v w : FVals X fs), modField g fs i v = .ok w →
    (∃ f t x y, getField fs i v = some (f, ⟨t, x⟩) ∧ g f t x = .ok y ∧ getField fs i w = some (f, ⟨t, y⟩)) ∧ ∀ j, j ≠ i → getField fs j w = getField fs j v
  | .nil, _, _, _, h => by cases h
  | .cons f t fs, 0, (x, xs), w, h => by
    obtain ⟨y, hy, hw⟩ := bind_ok h
    injection hw with hw; subst hw
    refine ⟨⟨f, t, x, y, rfl, hy, rfl⟩, fun j hj => ?_⟩
    cases j with
    | zero => exact absurd rfl hj
    | succ j => rfl
  | .cons f t fs, i + 1, (x, xs), w, h => by
    obtain ⟨ys, hy, hw⟩ := bind_ok h
    injection hw with hw; subst hw
    obtain ⟨h1, h2⟩ := modField_ok g fs i xs ys hy
    refine ⟨h1, fun j hj => ?_⟩
    cases j with
    | zero => rfl
    | succ j => exact h2 j (by omega)

/-- The field is there and `g` succeeds on it. -/
theorem modField_succeeds (g : FieldInfo → (t : Ty) → Val X t → Res (Val X t)) : ∀ (fs : Fields) (i : Nat) (v : FVals X fs) (f : FieldInfo) (t : Ty) (x y : Val X t),
    getField fs i v = some (f, ⟨t, x⟩) → g f t x = .ok y → ∃ w, modField g fs i v = .ok w
  | .nil, _, _, _, _, _, _, h, _ => by cases h
  | .cons g' u fs, 0, (a, as), f, t, x, y, h, hg => by
    simp only [getField, Option.some.injEq, Prod.mk.injEq] at h
    obtain ⟨rfl, h⟩ := h
    obtain ⟨rfl, h⟩ := Sigma.mk.inj h
    have h := eq_of_heq h
    subst h
    exact ⟨(y, as), by simp only [modField, hg, Res.bind]⟩
  | .cons _ _ fs, i + 1, (a, as), f, t, x, y, h, hg => by
    obtain ⟨w, hw⟩ := modField_succeeds g fs i as f t x y h hg
    exact ⟨(a, w), by simp only [modField, hw, Res.bind]⟩

theorem copyField_ok : ∀ (fs : Fields) (i : Nat) (s d w : FVals X fs), copyField fs i s d = .ok w →
    getField fs i w = getField fs i s ∧ ∀ j, j ≠ i → getField fs j w = getField fs j d
  | .nil, _, _, _, _, h => by cases h
  | .cons f t fs, 0, (x, xs), (y, ys), w, h => by
    simp only [copyField] at h
    split at h
    · injection h with h; subst h
      refine ⟨rfl, fun j hj => ?_⟩
      cases j with
      | zero => exact absurd rfl hj
      | succ j => rfl
    · cases h
  | .cons f t fs, i + 1, (x, xs), (y, ys), w, h => by
    obtain ⟨zs, hz, hw⟩ := bind_ok h
    injection hw with hw; subst hw
    obtain ⟨h1, h2⟩ := copyField_ok fs i xs ys zs hz
    refine ⟨h1, fun j hj => ?_⟩
    cases j with
    | zero => rfl
    | succ j => exact h2 j (by omega)

theorem copyField_succeeds : ∀ (fs : Fields) (i : Nat) (s d : FVals X fs) (f : FieldInfo) (t : Ty) (x : Val X t), getField fs i s = some (f, ⟨t, x⟩) →
    f.exported = true → ∃ w, copyField fs i s d = .ok w
  | .nil, _, _, _, _, _, _, h, _ => by cases h
  | .cons f t fs, 0, (x, xs), (y, ys), f', t', x', h, he => by
    simp only [getField, Option.some.injEq, Prod.mk.injEq] at h
    obtain ⟨rfl, _⟩ := h
    exact ⟨(x, ys), by simp only [copyField, he, if_true]⟩
  | .cons _ _ fs, i + 1, (x, xs), (y, ys), f, t, x', h, he => by
    obtain ⟨w, hw⟩ := copyField_succeeds fs i xs ys f t x' h he
    exact ⟨(y, w), by simp only [copyField, hw, Res.bind]⟩

/-! ### zero values -/

theorem all_zero {α : Type} (p : α → Bool) (z : α) (l : List α) (h : ∀ x, p x = true ↔ x = z) : l.all p = true ↔ l = List.replicate l.length z := by
  induction l with
  | nil => simp
  | cons a l ih =>
    simp only [List.all_cons, Bool.and_eq_true, h, ih, List.length_cons, List.replicate_succ, List.cons.injEq]

theorem anyNil_iff (a : Any X) : anyNil a = true ↔ a = .nil := by cases a <;> simp [anyNil]

theorem bool_iff (b : Bool) : (!b) = true ↔ b = false := by cases b <;> decide

theorem same_iff {α : Type} [DecidableEq α] (a b : α) : same a b = true ↔ a = b := by simp [same]

variable [DecidableEq X.F] [DecidableEq X.T]

theorem isZero_array (n : Nat) (t : Ty) (v : Val X (.array n t)) (h : ∀ x : Val X t, isZero t x = true ↔ x = zero X t) :
    isZero (.array n t) v = true ↔ v = zero X (.array n t) := by
  have := all_zero (isZero t) (zero X t) (v : { l : List (Val X t) // l.length = n }).1 h
  simp only [isZero]
  rw [this, (v : { l : List (Val X t) // l.length = n }).2]
  exact ⟨fun h => Subtype.ext h, fun h => congrArg Subtype.val h⟩

mutual
theorem isZero_iff : ∀ (t : Ty) (v : Val X t), isZero t v = true ↔ v = zero X t
  | .bool, v => by simp only [isZero]; exact bool_iff v
  | .int w, v => same_iff (α := BitVec w.bits) v 0
  | .uint w, v => same_iff (α := BitVec w.bits) v 0
  | .float64, v => same_iff (α := X.F) v X.fZero
  | .float32, v => same_iff (α := X.F) v X.fZero
  | .string, v => same_iff (α := Str) v []
  | .any, v => anyNil_iff v
  | .node, v => Option.isNone_iff_eq_none (o := (v : Option (Node X)))
  | .time, v => same_iff (α := X.T) v X.tZero
  | .encTime, v => same_iff (α := X.T) v X.tZero
  | .encDur, v => same_iff (α := Int) v 0
  | .func, v => Option.isNone_iff_eq_none (o := (v : Option Nat))
  | .chan, v => Option.isNone_iff_eq_none (o := (v : Option Nat))
  | .iface, _ => ⟨fun _ => rfl, fun _ => by simp only [isZero]⟩
  | .ptr t, v => by simp only [isZero]; exact Option.isNone_iff_eq_none (o := (v : Option (Val X t)))
  | .slice t, v => by simp only [isZero]; exact Option.isNone_iff_eq_none (o := (v : Option (List (Val X t))))
  | .array n t, v => isZero_array n t v (isZero_iff t)
  | .map _ t, v => by simp only [isZero]; exact Option.isNone_iff_eq_none (o := (v : Option (List (Str × Val X t))))
  | .struct fs, v => by simp only [isZero]; exact isZeros_iff fs v
theorem isZeros_iff : ∀ (fs : Fields) (v : FVals X fs), isZeros fs v = true ↔ v = zeroFields X fs
  | .nil, _ => ⟨fun _ => rfl, fun _ => by simp only [isZeros]⟩
  | .cons f t fs, (v, vs) => by
    simp only [isZeros, Bool.and_eq_true]
    rw [isZero_iff t v, isZeros_iff fs vs]
    constructor
    · rintro ⟨h1, h2⟩; subst h1; subst h2; rfl
    · intro h; exact ⟨congrArg Prod.fst h, congrArg Prod.snd h⟩
end

/-! ### building handlers -/

/-- The fields a handler lists: those `sel` accepts, by their tag and whether the template's value is zero. -/
def collect (U : Str → Option Str) (sel : ATag → Bool → Bool) : (fs : Fields) → FVals X fs → Nat → List HField
  | .nil, _, _ => []
  | .cons f t fs, (v, vs), i =>
    match parseTags U f with
    | none => []
    | some tag => (if sel tag (isZero t v) then [⟨i, tag⟩] else []) ++ collect U sel fs vs (i + 1)

theorem collect_mem (U : Str → Option Str) (sel : ATag → Bool → Bool) : ∀ (fs : Fields) (v : FVals X fs) (i : Nat) (a : HField), a ∈ collect U sel fs v i →
    ∃ j f t x, a.i = i + j ∧ getField fs j v = some (f, ⟨t, x⟩) ∧ parseTags U f = some a.tag ∧ sel a.tag (isZero t x) = true
  | .nil, _, _, _, h => by cases h
  | .cons f t fs, (v, vs), i, a, h => by
    simp only [collect] at h
    split at h
    · cases h
    · rename_i tag ht
      rw [List.mem_append] at h
      rcases h with h | h
      · split at h
        · rename_i hs
          simp only [List.mem_singleton] at h
          subst h
          exact ⟨0, f, t, v, rfl, rfl, ht, hs⟩
        · cases h
      · obtain ⟨j, f', t', x, h1, h2⟩ := collect_mem U sel fs vs (i + 1) a h
        exact ⟨j + 1, f', t', x, by omega, h2⟩

/-- All tags can be parsed. -/
def TagsOk (U : Str → Option Str) (fs : Fields) : Prop := ∀ f ∈ fs.infos, ∃ tag, parseTags U f = some tag

theorem collect_of_getField (U : Str → Option Str) (sel : ATag → Bool → Bool) : ∀ (fs : Fields) (v : FVals X fs) (i j : Nat) (f : FieldInfo) (t : Ty)
    (x : Val X t) (tag : ATag), TagsOk U fs → getField fs j v = some (f, ⟨t, x⟩) → parseTags U f = some tag → sel tag (isZero t x) = true →
    (⟨i + j, tag⟩ : HField) ∈ collect U sel fs v i
  | .nil, _, _, _, _, _, _, _, _, h, _, _ => by cases h
  | .cons g u fs, (y, ys), i, 0, f, t, x, tag, hok, h, ht, hs => by
    simp only [getField, Option.some.injEq, Prod.mk.injEq] at h
    obtain ⟨rfl, h⟩ := h
    obtain ⟨rfl, h⟩ := Sigma.mk.inj h
    have h := eq_of_heq h
    subst h
    simp only [collect, ht]
    rw [if_pos hs]
    simp
  | .cons g u fs, (y, ys), i, j + 1, f, t, x, tag, hok, h, ht, hs => by
    obtain ⟨tag', ht'⟩ := hok g (List.mem_cons_self ..)
    have := collect_of_getField U sel fs ys (i + 1) j f t x tag (fun f hf => hok f (List.mem_cons_of_mem _ hf)) h ht hs
    rw [Nat.add_right_comm, Nat.add_assoc] at this
    simp only [collect, ht']
    exact List.mem_append_right _ this

theorem collect_pairwise (U : Str → Option Str) (sel : ATag → Bool → Bool) : ∀ (fs : Fields) (v : FVals X fs) (i : Nat),
    (collect U sel fs v i).Pairwise fun a b => a.i ≠ b.i
  | .nil, _, _ => .nil
  | .cons f t fs, (v, vs), i => by
    simp only [collect]
    split
    · exact .nil
    · rename_i tag ht
      rw [List.pairwise_append]
      refine ⟨by split <;> simp, collect_pairwise U sel fs vs (i + 1), fun a ha b hb => ?_⟩
      split at ha
      · simp only [List.mem_singleton] at ha
        subst ha
        obtain ⟨j, _, _, _, h, _⟩ := collect_mem U sel fs vs (i + 1) b hb
        simp only
        omega
      · cases ha

/-- What `NewHandler` makes of the fields. -/
theorem scan_some (U : Str → Option Str) : ∀ (fs : Fields) (v : FVals X fs) (i : Nat) (h h' : AHandler), scan U fs v i h = some h' →
    TagsOk U fs ∧ h'.ins = h.ins ++ collect U (fun t _ => t.isIn) fs v i ∧ h'.outs = h.outs ++ collect U (fun t _ => t.isOut) fs v i ∧
    h'.init = h.init ++ (collect U (fun t z => !t.isIn && !t.isOut && t.url.isNone && !z) fs v i).map (·.i) ∧
    h'.auth.toList = h.auth.toList ++ collect U (fun t _ => t.auth) fs v i ∧
    h'.urls = h.urls ++ (collect U (fun t _ => t.url.isSome) fs v i).filterMap (·.tag.url)
  | .nil, _, i, h, h', hs => by
    injection hs with hs; subst hs
    exact ⟨(fun f hf => by cases hf), by simp [collect]⟩
  | .cons f t fs, (v, vs), i, h, h', hs => by
    simp only [scan] at hs
    cases ht : parseTags U f with
    | none => rw [ht] at hs; cases hs
    | some tag =>
      rw [ht] at hs
      simp only [Option.bind_some] at hs
      cases ha : addField h i tag (isZero t v) with
      | none => rw [ha] at hs; cases hs
      | some h1 =>
        rw [ha] at hs
        simp only [Option.bind_some] at hs
        obtain ⟨i1, i2, i3, i4, i5, i6⟩ := scan_some U fs vs (i + 1) h1 h' hs
        refine ⟨fun f' hf' => ?_, ?_⟩
        · simp only [Fields.infos, List.mem_cons] at hf'
          rcases hf' with rfl | hf'
          · exact ⟨tag, ht⟩
          · exact i1 f' hf'
        · unfold addField at ha
          split at ha
          · cases ha
          · rename_i hna
            injection ha with ha
            simp only [collect, ht]
            subst ha
            simp only at i2 i3 i4 i5 i6
            refine ⟨?_, ?_, ?_, ?_, ?_⟩
            · rw [i2]; split <;> simp
            · rw [i3]; split <;> simp
            · rw [i4]; split <;> simp
            · rw [i5]
              split
              · rename_i hta
                rw [hta] at hna
                cases hh : h.auth with
                | none => simp
                | some _ => rw [hh] at hna; simp at hna
              · simp
            · rw [i6]
              rcases Option.eq_none_or_eq_some tag.url with hu | ⟨u, hu⟩ <;> simp [hu]

/-- When `NewHandler` succeeds on the fields. -/
theorem scan_isSome (U : Str → Option Str) : ∀ (fs : Fields) (v : FVals X fs) (i : Nat) (h : AHandler),
    (scan U fs v i h).isSome = true ↔ TagsOk U fs ∧ (h.auth.toList ++ collect U (fun t _ => t.auth) fs v i).length ≤ 1
  | .nil, _, i, h => by
    simp only [scan, Option.isSome_some, collect, List.append_nil, true_iff]
    refine ⟨(fun f hf => by cases hf), ?_⟩
    cases h.auth <;> simp
  | .cons f t fs, (v, vs), i, h => by
    simp only [scan]
    cases ht : parseTags U f with
    | none =>
      simp only [Option.bind_none, Option.isSome_none, Bool.false_eq_true, false_iff, not_and]
      intro hok
      obtain ⟨tag, h⟩ := hok f (List.mem_cons_self ..)
      rw [ht] at h; cases h
    | some tag =>
      have htags : TagsOk U (.cons f t fs) ↔ TagsOk U fs :=
        ⟨fun h f hf => h f (List.mem_cons_of_mem _ hf), fun h f' hf' => by
          simp only [Fields.infos, List.mem_cons] at hf'
          rcases hf' with rfl | hf'
          · exact ⟨tag, ht⟩
          · exact h f' hf'⟩
      simp only [Option.bind_some, collect, ht, htags]
      unfold addField
      split
      · rename_i hna
        simp only [Bool.and_eq_true] at hna
        obtain ⟨h1, h2⟩ := hna
        obtain ⟨a, ha⟩ := Option.isSome_iff_exists.1 h2
        simp [h1, ha]
      · rename_i hna
        simp only [Option.bind_some]
        rw [scan_isSome U fs vs (i + 1)]
        by_cases hta : tag.auth = true
        · rcases Option.eq_none_or_eq_some h.auth with hh | ⟨_, hh⟩
          · simp [hta, hh]
          · rw [hta, hh] at hna; simp at hna
        · simp [hta]

/-! ### receiving -/

theorem recvInit_ok (fs : Fields) (now : FVals X fs) : ∀ (l : List Nat) (v w : FVals X fs), recvInit fs now l v = .ok w →
    (∀ j ∈ l, getField fs j w = getField fs j now) ∧ ∀ j, j ∉ l → getField fs j w = getField fs j v
  | [], v, w, h => by
    injection h with h; subst h
    exact ⟨(fun j hj => by cases hj), fun _ _ => rfl⟩
  | i :: l, v, w, h => by
    obtain ⟨u, hu, hw⟩ := bind_ok h
    obtain ⟨h1, h2⟩ := recvInit_ok fs now l u w hw
    obtain ⟨h3, h4⟩ := copyField_ok fs i now v u hu
    constructor
    · intro j hj
      by_cases hl : j ∈ l
      · exact h1 j hl
      · have : j = i := by
          rcases List.mem_cons.1 hj with h | h
          · exact h
          · exact absurd h hl
        subst this
        rw [h2 j hl, h3]
    · intro j hj
      simp only [List.mem_cons, not_or] at hj
      rw [h2 j hj.2, h4 j hj.1]

theorem clientRecv_ok (O : Order) (fs : Fields) (data : List (Str × Node X)) : ∀ (l : List HField) (v w : FVals X fs), (l.Pairwise fun a b => a.i ≠ b.i) →
    clientRecv O fs data l v = .ok w →
    (∀ a ∈ l, ∃ f t x y, getField fs a.i v = some (f, ⟨t, x⟩) ∧ getField fs a.i w = some (f, ⟨t, y⟩) ∧ unmarshalField O data a.tag.name f t x = .ok y) ∧
    ∀ j, (∀ a ∈ l, a.i ≠ j) → getField fs j w = getField fs j v
  | [], v, w, _, h => by
    injection h with h; subst h
    exact ⟨(fun j hj => by cases hj), fun _ _ => rfl⟩
  | a :: l, v, w, hp, h => by
    obtain ⟨u, hu, hw⟩ := bind_ok h
    rw [List.pairwise_cons] at hp
    obtain ⟨h1, h2⟩ := clientRecv_ok O fs data l u w hp.2 hw
    obtain ⟨⟨f, t, x, y, h3, h4, h5⟩, h6⟩ := modField_ok _ fs a.i v u hu
    constructor
    · intro b hb
      rcases List.mem_cons.1 hb with rfl | hb
      · exact ⟨f, t, x, y, h3, by rw [h2 b.i (fun c hc => (hp.1 c hc).symm)]; exact h5, h4⟩
      · obtain ⟨f, t, x, y, h7, h8, h9⟩ := h1 b hb
        exact ⟨f, t, x, y, by rw [← h6 b.i (hp.1 b hb).symm]; exact h7, h8, h9⟩
    · intro j hj
      rw [h2 j (fun c hc => hj c (List.mem_cons_of_mem _ hc)), h6 j (hj a (List.mem_cons_self ..)).symm]

/-- A zero field. -/
def fieldZero (fs : Fields) (i : Nat) (v : FVals X fs) : Bool :=
  match getField fs i v with
  | some (_, ⟨t, x⟩) => isZero t x
  | none => false

theorem recvIns_cons (O : Order) (fs : Fields) (data : List (Str × Node X)) (a : HField) (l : List HField) (v : FVals X fs) :
    recvIns O fs data (a :: l) v = (modField (unmarshalField O data a.tag.name) fs a.i v).bind fun u =>
      if a.tag.required && fieldZero fs a.i u then .err else recvIns O fs data l u := rfl

theorem recvIns_ok (O : Order) (fs : Fields) (data : List (Str × Node X)) : ∀ (l : List HField) (v w : FVals X fs), (l.Pairwise fun a b => a.i ≠ b.i) →
    recvIns O fs data l v = .ok w → clientRecv O fs data l v = .ok w ∧ ∀ a ∈ l, a.tag.required = true → fieldZero fs a.i w = false
  | [], v, w, _, h => by
    injection h with h; subst h
    exact ⟨rfl, fun a ha => by cases ha⟩
  | a :: l, v, w, hp, h => by
    rw [recvIns_cons] at h
    obtain ⟨u, hu, hw⟩ := bind_ok h
    rw [List.pairwise_cons] at hp
    by_cases hz : (a.tag.required && fieldZero fs a.i u) = true
    · rw [if_pos hz] at hw; cases hw
    · rw [if_neg hz] at hw
      obtain ⟨h1, h2⟩ := recvIns_ok O fs data l u w hp.2 hw
      refine ⟨by simp only [clientRecv, hu, Res.bind, h1], fun b hb hr => ?_⟩
      rcases List.mem_cons.1 hb with rfl | hb
      · have := (clientRecv_ok O fs data l u w hp.2 h1).2 b.i (fun c hc => (hp.1 c hc).symm)
        simp only [hr, Bool.true_and, Bool.not_eq_true] at hz
        unfold fieldZero at hz ⊢
        rw [this]; exact hz
      · exact h2 b hb hr

end Verif.Api

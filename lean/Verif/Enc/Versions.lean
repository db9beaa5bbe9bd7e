import Verif.Enc.Again
import Verif.Enc.GoodLemmas
/-!
# Programs with different versions of a type (enc/handler.go L51-318, enc/map.go L51-125) (C182)

One program writes values of a type, another one, older or newer, reads them into its own version of the type. What is written and read is as in Enc/Marshal.lean and Enc/Unmarshal.lean.
-/
set_option autoImplicit false
namespace Verif.Enc.Versions
open Verif.Strconv Verif.Enc Verif.Enc.Again

variable {X : Ext}

/-! ### specification -/

/-- The field is written and read under the name `k`. -/
def Live (f : FieldInfo) (k : Str) : Prop := f.exported = true ∧ ∃ tag, parseTag f = some tag ∧ tag.skip = false ∧ tag.json = k

/-- The struct has a field of this name and type. -/
def HasField : Fields → Str → Ty → Prop
  | .nil, _, _ => False
  | .cons f t fs, k, u => (Live f k ∧ u = t) ∨ HasField fs k u

/-- `v` is the value of the field `k`, of type `t`, in the struct. -/
inductive FieldAt : (fs : Fields) → FVals X fs → Str → (t : Ty) → Val X t → Prop
  | here (f : FieldInfo) (t : Ty) (fs : Fields) (v : Val X t) (vs : FVals X fs) (k : Str) : Live f k → FieldAt (.cons f t fs) (show FVals X (.cons f t fs) from (v, vs)) k t v
  | there (f : FieldInfo) (u : Ty) (fs : Fields) (w : Val X u) (vs : FVals X fs) (k : Str) (t : Ty) (v : Val X t) :
      FieldAt fs vs k t v → FieldAt (.cons f u fs) (show FVals X (.cons f u fs) from (w, vs)) k t v

/-- Types without parts. -/
def leaf : Ty → Bool
  | .bool | .float64 | .float32 | .string | .any | .node | .time | .encTime | .encDur | .func | .chan | .iface => true
  | .int _ | .uint _ | .ptr _ | .slice _ | .array _ _ | .map _ _ | .struct _ => false

/-- The second type is a version of the first one: structs may have more fields, fewer fields, and in another order; fields of the same name are versions of each other; integers may be wider. -/
inductive Version : Ty → Ty → Prop
  | same (t : Ty) : leaf t = true → Version t t
  | int (w w' : Width) : w.bits ≤ w'.bits → Version (.int w) (.int w')
  | uint (w w' : Width) : w.bits ≤ w'.bits → Version (.uint w) (.uint w')
  | ptr (t t' : Ty) : Version t t' → Version (.ptr t) (.ptr t')
  | slice (t t' : Ty) : Version t t' → Version (.slice t) (.slice t')
  | array (k : Nat) (t t' : Ty) : Version t t' → Version (.array k t) (.array k t')
  | map (k : KTy) (t t' : Ty) : Version t t' → Version (.map k t) (.map k t')
  | struct (fs fs' : Fields) : (∀ f ∈ fs'.infos, f.exported = true → parseTag f ≠ none) → (∀ k t t', HasField fs k t → HasField fs' k t' → Version t t') → Version (.struct fs) (.struct fs')

mutual
/-- What is left of a value in another version of its type: the same number, text, length, keys; of a struct the fields it has in both. -/
inductive Seen : (t t' : Ty) → Val X t → Val X t' → Prop
  | same (t : Ty) (v : Val X t) : leaf t = true → Seen t t v v
  | int (w w' : Width) (v : BitVec w.bits) (v' : BitVec w'.bits) : v.toInt = v'.toInt → Seen (.int w) (.int w') v v'
  | uint (w w' : Width) (v : BitVec w.bits) (v' : BitVec w'.bits) : v.toNat = v'.toNat → Seen (.uint w) (.uint w') v v'
  | nilPtr (t t' : Ty) : Seen (.ptr t) (.ptr t') (none : Option (Val X t)) (none : Option (Val X t'))
  | ptr (t t' : Ty) (v : Val X t) (v' : Val X t') : Seen t t' v v' → Seen (.ptr t) (.ptr t') (some v : Option (Val X t)) (some v' : Option (Val X t'))
  | nilSlice (t t' : Ty) : Seen (.slice t) (.slice t') (none : Option (List (Val X t))) (none : Option (List (Val X t')))
  | slice (t t' : Ty) (l : List (Val X t)) (l' : List (Val X t')) : l.length = l'.length → (∀ (i : Nat) v v', l[i]? = some v → l'[i]? = some v' → Seen t t' v v') →
      Seen (.slice t) (.slice t') (some l : Option (List (Val X t))) (some l' : Option (List (Val X t')))
  | array (k : Nat) (t t' : Ty) (l : { l : List (Val X t) // l.length = k }) (l' : { l : List (Val X t') // l.length = k }) :
      (∀ (i : Nat) v v', l.1[i]? = some v → l'.1[i]? = some v' → Seen t t' v v') → Seen (.array k t) (.array k t') l l'
  | nilMap (k : KTy) (t t' : Ty) : Seen (.map k t) (.map k t') (none : Option (List (Str × Val X t))) (none : Option (List (Str × Val X t')))
  | map (k : KTy) (t t' : Ty) (m : List (Str × Val X t)) (m' : List (Str × Val X t')) : m.map (·.1) = m'.map (·.1) →
      (∀ (i : Nat) (e : Str × Val X t) (e' : Str × Val X t'), m[i]? = some e → m'[i]? = some e' → Seen t t' e.2 e'.2) → Seen (.map k t) (.map k t') (some m : Option (List (Str × Val X t))) (some m' : Option (List (Str × Val X t')))
  | struct (fs fs' : Fields) (vs : FVals X fs) (vs' : FVals X fs') : SeenAll fs fs' vs vs' → Seen (.struct fs) (.struct fs') vs vs'
/-- Every field of the second struct is that of the first one, or zero if that has no such field. -/
inductive SeenAll : (fs fs' : Fields) → FVals X fs → FVals X fs' → Prop
  | nil (fs : Fields) (vs : FVals X fs) : SeenAll fs .nil vs ()
  | kept (fs : Fields) (vs : FVals X fs) (f : FieldInfo) (t' : Ty) (fs' : Fields) (k : Str) (t : Ty) (v : Val X t) (v' : Val X t') (vs' : FVals X fs') :
      Live f k → FieldAt fs vs k t v → Seen t t' v v' → SeenAll fs fs' vs vs' → SeenAll fs (.cons f t' fs') vs (show FVals X (.cons f t' fs') from (v', vs'))
  | fresh (fs : Fields) (vs : FVals X fs) (f : FieldInfo) (t' : Ty) (fs' : Fields) (vs' : FVals X fs') :
      (∀ k, Live f k → ¬ ∃ t, HasField fs k t) → SeenAll fs fs' vs vs' → SeenAll fs (.cons f t' fs') vs (show FVals X (.cons f t' fs') from (zero X t', vs'))
end

/-- The reader does not refuse unknown fields. -/
def Lenient (H : Handler X) : Prop := ∀ cb, H.unhandled = some cb → ∀ k n, cb k n = false

/-! ### lemmas -/

theorem report_ok (H : Handler X) (hH : Lenient H) (O : Order) (fs : Fields) (m : List (Str × Node X)) : (report H O fs m).1 = .ok := by
  unfold report
  cases hc : H.unhandled with
  | none => rfl
  | some cb =>
    dsimp only
    have : ∀ l : List (Str × Node X), (reportAll cb l).1 = .ok := by
      intro l
      induction l with
      | nil => rfl
      | cons e l ih => simp only [reportAll, hH cb hc e.1 e.2]; exact ih
    exact this _

theorem uStruct_st (H : Handler X) (hH : Lenient H) (O : Order) (fs : Fields) (m : List (Str × Node X)) (r : Out X (FVals X fs)) (h : r.st = .ok) : (uStruct H O fs m r).st = .ok := by
  unfold uStruct
  rw [h]
  exact report_ok H hH O fs m

/-- The document can be read as `t`, and as any version of it with what is left. -/
def Reads (H : Handler X) (O : Order) (t : Ty) (n : Node X) : Prop :=
  (unmarshal H O t n (zero X t)).st = .ok ∧ ∀ t', Version t t' → (unmarshal H O t' n (zero X t')).st = .ok ∧ Seen t t' (unmarshal H O t n (zero X t)).val (unmarshal H O t' n (zero X t')).val

theorem reads_leaf (H : Handler X) (O : Order) (t : Ty) (n : Node X) (ht : leaf t = true) (h : (unmarshal H O t n (zero X t)).st = .ok) : Reads H O t n := by
  refine ⟨h, fun t' hv => ?_⟩
  cases hv with
  | same _ _ => exact ⟨h, .same t _ ht⟩
  | _ => exact nomatch ht

theorem int_wider (w w' : Width) (h : w.bits ≤ w'.bits) (v : BitVec w.bits) : (BitVec.ofInt w.bits v.toInt).toInt = (BitVec.ofInt w'.bits v.toInt).toInt := by
  have h1 := BitVec.le_toInt v
  have h2 := BitVec.toInt_lt (x := v)
  rw [BitVec.ofInt_toInt, BitVec.toInt_ofInt]
  symm
  apply Int.bmod_eq_of_le
  all_goals revert h1 h2 h v; cases w <;> cases w' <;> simp only [Width.bits] <;> intros <;> omega

theorem uint_wider (w w' : Width) (h : w.bits ≤ w'.bits) (v : BitVec w.bits) : (BitVec.ofInt w.bits (v.toNat : Int)).toNat = (BitVec.ofInt w'.bits (v.toNat : Int)).toNat := by
  have h1 := v.isLt
  rw [BitVec.ofInt_natCast, BitVec.ofInt_natCast, BitVec.toNat_ofNat, BitVec.toNat_ofNat, Nat.mod_eq_of_lt h1, Nat.mod_eq_of_lt (Nat.lt_of_lt_of_le h1 (Nat.pow_le_pow_right (by decide) h))]

theorem reads_int (H : Handler X) (O : Order) (w : Width) (v : BitVec w.bits) (n : Node X) (h : n.int64 = some v.toInt) : Reads H O (.int w) n := by
  refine ⟨by rw [un_int H O w n _ _ h]; rfl, fun t' hv => ?_⟩
  cases hv with
  | same _ h => exact nomatch h
  | int _ w' hw =>
    rw [un_int H O w n _ _ h, un_int H O w' n _ _ h]
    exact ⟨rfl, .int w w' _ _ (int_wider w w' hw v)⟩

theorem reads_uint (H : Handler X) (O : Order) (w : Width) (v : BitVec w.bits) (n : Node X) (h : n.uint64 = some (v.toNat : Int)) : Reads H O (.uint w) n := by
  refine ⟨by rw [un_uint H O w n _ _ h]; rfl, fun t' hv => ?_⟩
  cases hv with
  | same _ h => exact nomatch h
  | uint _ w' hw =>
    rw [un_uint H O w n _ _ h, un_uint H O w' n _ _ h]
    exact ⟨rfl, .uint w w' _ _ (uint_wider w w' hw v)⟩

theorem un_ptr (H : Handler X) (O : Order) (t : Ty) (n : Node X) (hn : n ≠ .nil) (old : Val X (.ptr t)) :
    unmarshal H O (.ptr t) n old = (⟨some (unmarshal H O t n (zero X t)).val, (unmarshal H O t n (zero X t)).st, (unmarshal H O t n (zero X t)).calls⟩ : Out X (Option (Val X t))) := by
  simp only [unmarshal]
  unfold uPtr
  cases n with
  | nil => exact absurd rfl hn
  | _ => rfl

theorem reads_ptr (H : Handler X) (O : Order) (t : Ty) (n : Node X) (h : n = .nil ∨ Reads H O t n) : Reads H O (.ptr t) n := by
  by_cases hn : n = .nil
  · subst hn
    refine ⟨by simp only [unmarshal]; rfl, fun t' hv => ?_⟩
    cases hv with
    | same _ h => exact nomatch h
    | ptr _ u hv => simp only [unmarshal]; exact ⟨rfl, .nilPtr t u⟩
  · obtain ⟨h1, h2⟩ := h.resolve_left hn
    refine ⟨by rw [un_ptr H O t n hn]; exact h1, fun t' hv => ?_⟩
    cases hv with
    | same _ h => exact nomatch h
    | ptr _ u hv =>
      rw [un_ptr H O t n hn, un_ptr H O u n hn]
      exact ⟨(h2 u hv).1, .ptr t u _ _ (h2 u hv).2⟩

theorem elems_val {α : Type} (f : Node X → Out X α) (l : List (Node X)) (h : ∀ n ∈ l, (f n).st = .ok) : (uElems f l).st = .ok ∧ (uElems f l).val = l.map fun n => (f n).val := by
  induction l with
  | nil => exact ⟨rfl, rfl⟩
  | cons n l ih =>
    obtain ⟨i1, i2⟩ := ih fun n hn => h n (List.mem_cons_of_mem _ hn)
    simp only [uElems, h n List.mem_cons_self, i1, i2]
    exact ⟨trivial, rfl⟩

theorem elems_seen {t t' : Ty} {f : Node X → Out X (Val X t)} {g : Node X → Out X (Val X t')} {l : List (Node X)} (h : ∀ n ∈ l, Seen t t' (f n).val (g n).val) (i : Nat) (v : Val X t) (v' : Val X t')
    (hv : (l.map fun n => (f n).val)[i]? = some v) (hv' : (l.map fun n => (g n).val)[i]? = some v') : Seen t t' v v' := by
  rw [List.getElem?_map] at hv hv'
  cases hn : l[i]? with
  | none => rw [hn] at hv; exact nomatch hv
  | some n =>
    rw [hn] at hv hv'
    cases hv; cases hv'
    exact h n (List.mem_of_getElem? hn)

theorem reads_slice (H : Handler X) (O : Order) (t : Ty) (l : List (Node X)) (h : ∀ n ∈ l, Reads H O t n) : Reads H O (.slice t) (.list l) := by
  have e : ∀ (u : Ty), (∀ n ∈ l, (unmarshal H O u n (zero X u)).st = .ok) → (unmarshal H O (.slice u) (.list l) (zero X (.slice u))).st = .ok ∧
      (unmarshal H O (.slice u) (.list l) (zero X (.slice u))).val = (some (l.map fun n => (unmarshal H O u n (zero X u)).val) : Option (List (Val X u))) := by
    intro u hu
    obtain ⟨h1, h2⟩ := elems_val (fun n => unmarshal H O u n (zero X u)) l hu
    simp only [unmarshal, uSlice, Out.assign, h1, h2]
    exact ⟨trivial, rfl⟩
  obtain ⟨e1, e2⟩ := e t fun n hn => (h n hn).1
  refine ⟨e1, fun t' hv => ?_⟩
  cases hv with
  | same _ h => exact nomatch h
  | slice _ u hv =>
    obtain ⟨f1, f2⟩ := e u fun n hn => ((h n hn).2 u hv).1
    rw [e2, f2]
    exact ⟨f1, .slice t u _ _ (by simp) (elems_seen fun n hn => ((h n hn).2 u hv).2)⟩

theorem array_val {α : Type} (k : Nat) (f : Node X → Out X α) (l : List (Node X)) (z old : { l : List α // l.length = k }) (hl : l.length = k) (h : ∀ n ∈ l, (f n).st = .ok) :
    (uArray k f (.list l) z old).st = .ok ∧ (uArray k f (.list l) z old).val = ⟨l.map fun n => (f n).val, by simp [hl]⟩ := by
  obtain ⟨h1, h2⟩ := elems_val f l h
  simp only [uArray, if_pos hl, Out.assign, h1]
  refine ⟨trivial, ?_⟩
  rw [dif_pos (by rw [h2]; simp [hl])]
  exact Subtype.ext h2

theorem reads_array (H : Handler X) (O : Order) (k : Nat) (t : Ty) (l : List (Node X)) (hl : l.length = k) (h : ∀ n ∈ l, Reads H O t n) : Reads H O (.array k t) (.list l) := by
  have e : ∀ (u : Ty), (∀ n ∈ l, (unmarshal H O u n (zero X u)).st = .ok) → (unmarshal H O (.array k u) (.list l) (zero X (.array k u))).st = .ok ∧
      (unmarshal H O (.array k u) (.list l) (zero X (.array k u))).val = (⟨l.map fun n => (unmarshal H O u n (zero X u)).val, by simp [hl]⟩ : { l : List (Val X u) // l.length = k }) := by
    intro u hu
    simp only [unmarshal]
    exact array_val k _ l _ _ hl hu
  obtain ⟨e1, e2⟩ := e t fun n hn => (h n hn).1
  refine ⟨e1, fun t' hv => ?_⟩
  cases hv with
  | same _ h => exact nomatch h
  | array _ _ u hv =>
    obtain ⟨f1, f2⟩ := e u fun n hn => ((h n hn).2 u hv).1
    rw [e2, f2]
    exact ⟨f1, .array k t u _ _ (elems_seen fun n hn => ((h n hn).2 u hv).2)⟩

/-- Maps with the same keys, and values of a relation. -/
def Along {α β : Type} (R : α → β → Prop) : List (Str × α) → List (Str × β) → Prop
  | [], [] => True
  | e :: l, e' :: l' => e.1 = e'.1 ∧ R e.2 e'.2 ∧ Along R l l'
  | _, _ => False

theorem along_insert {α β : Type} {R : α → β → Prop} (k : Str) (a : α) (b : β) (h : R a b) : ∀ (l : List (Str × α)) (l' : List (Str × β)), Along R l l' → Along R (insertKey k a l) (insertKey k b l')
  | [], [], _ => ⟨rfl, h, trivial⟩
  | (x, u) :: l, (y, v) :: l', hl => by
    obtain ⟨h1, h2, h3⟩ := hl
    have h1 : x = y := h1
    subst h1
    simp only [insertKey]
    split
    · exact ⟨rfl, h, h3⟩
    · split
      · exact ⟨rfl, h, rfl, h2, h3⟩
      · exact ⟨rfl, h2, along_insert k a b h l l' h3⟩
  | [], _ :: _, hl => hl.elim
  | _ :: _, [], hl => hl.elim

theorem along_keys {α β : Type} {R : α → β → Prop} : ∀ (l : List (Str × α)) (l' : List (Str × β)), Along R l l' → l.map (·.1) = l'.map (·.1) ∧ ∀ (i : Nat) (e : Str × α) (e' : Str × β), l[i]? = some e → l'[i]? = some e' → R e.2 e'.2
  | [], [], _ => ⟨rfl, fun _ _ _ h => nomatch h⟩
  | a :: l, b :: l', hl => by
    obtain ⟨h1, h2, h3⟩ := hl
    obtain ⟨i1, i2⟩ := along_keys l l' h3
    refine ⟨by simp only [List.map_cons, h1, i1], fun i e e' he he' => ?_⟩
    cases i with
    | zero => cases he; cases he'; exact h2
    | succ i => exact i2 i e e' (by simpa using he) (by simpa using he')
  | [], _ :: _, hl => hl.elim
  | _ :: _, [], hl => hl.elim

theorem entries_along {α β : Type} {R : α → β → Prop} (k : KTy) (f : Node X → Out X α) (g : Node X → Out X β) : ∀ (l : List (Str × Node X)) (acc : List (Str × α)) (acc' : List (Str × β)),
    (∀ e ∈ l, (g e.2).st = .ok ∧ R (f e.2).val (g e.2).val) → Along R acc acc' → (uEntries k f l acc).st = .ok →
    (uEntries k g l acc').st = .ok ∧ Along R (uEntries k f l acc).val (uEntries k g l acc').val
  | [], _, _, _, ha, _ => ⟨rfl, ha⟩
  | (key, n) :: l, acc, acc', h, ha, hs => by
    obtain ⟨g1, g2⟩ := h (key, n) List.mem_cons_self
    simp only [uEntries] at hs ⊢
    cases hk : normKey k key with
    | none => rw [hk] at hs; exact nomatch hs
    | some key' =>
      rw [hk] at hs
      dsimp only at hs g1 ⊢
      cases hf : (f n).st with
      | ok =>
        rw [hf] at hs
        simp only [g1]
        exact entries_along k f g l _ _ (fun e he => h e (List.mem_cons_of_mem _ he)) (along_insert key' _ _ g2 acc acc' ha) hs
      | err => rw [hf] at hs; exact nomatch hs
      | panic => rw [hf] at hs; exact nomatch hs

theorem reads_map (H : Handler X) (O : Order) (k : KTy) (t : Ty) (m : List (Str × Node X)) (h : ∀ e ∈ m, Reads H O t e.2) (hs : (unmarshal H O (.map k t) (.map m) (zero X (.map k t))).st = .ok) :
    Reads H O (.map k t) (.map m) := by
  refine ⟨hs, fun t' hv => ?_⟩
  cases hv with
  | same _ h => exact nomatch h
  | map _ _ u hv =>
    have hok : (uEntries k (fun n => unmarshal H O t n (zero X t)) (O.perm m) []).st = .ok := by
      simp only [unmarshal, uMap, Out.assign] at hs
      split at hs
      · assumption
      · exact hs
    obtain ⟨e1, e2⟩ := entries_along (R := Seen t u) k (fun n => unmarshal H O t n (zero X t)) (fun n => unmarshal H O u n (zero X u)) (O.perm m) [] []
      (fun e he => (h e ((O.isPerm m).mem_iff.1 he)).2 u hv) trivial hok
    obtain ⟨k1, k2⟩ := along_keys _ _ e2
    simp only [unmarshal, uMap, Out.assign, hok, e1]
    exact ⟨trivial, .map k t u _ _ k1 k2⟩

/-! #### structs -/

theorem fieldAt_zero : ∀ (fs : Fields) (k : Str) (t : Ty), HasField fs k t → FieldAt fs (zeroFields X fs) k t (zero X t)
  | .nil, _, _, h => h.elim
  | .cons f u fs, k, t, h => by
    rcases h with ⟨h, rfl⟩ | h
    · exact .here f t fs (zero X t) (zeroFields X fs) k h
    · exact .there f u fs (zero X u) (zeroFields X fs) k t _ (fieldAt_zero fs k t h)

theorem live_unique (f : FieldInfo) (k k' : Str) (h : Live f k) (h' : Live f k') : k = k' := by
  obtain ⟨-, tag, h1, -, rfl⟩ := h
  obtain ⟨-, tag', h1', -, rfl⟩ := h'
  rw [h1] at h1'; cases h1'; rfl

/-- The fields of a reader that finds nothing. -/
theorem zeros_seen (fs : Fields) (hz : ∀ (k : Str) (t : Ty), HasField fs k t → ∀ t', Version t t' → Seen t t' (zero X t) (zero X t')) : ∀ (fs' : Fields),
    (∀ k t t', HasField fs k t → HasField fs' k t' → Version t t') → SeenAll fs fs' (zeroFields X fs) (zeroFields X fs')
  | .nil, _ => .nil fs _
  | .cons f u fs', h => by
    have ih := zeros_seen fs hz fs' fun k t t' h1 h2 => h k t t' h1 (Or.inr h2)
    by_cases he : ∃ k t, Live f k ∧ HasField fs k t
    · obtain ⟨k, t, h1, h2⟩ := he
      exact .kept fs _ f u fs' k t _ _ _ h1 (fieldAt_zero fs k t h2) (hz k t h2 u (h k t u h2 (Or.inl ⟨h1, rfl⟩))) ih
    · exact .fresh fs _ f u fs' _ (fun k h1 ⟨t, h2⟩ => he ⟨k, t, h1, h2⟩) ih

mutual
theorem seen_zero : ∀ (t t' : Ty), Version t t' → Seen t t' (zero X t) (zero X t')
  | .struct fs, _, hv => by
    cases hv with
    | same _ h => exact nomatch h
    | struct _ fs' h1 h2 => exact .struct fs fs' _ _ (zeros_seen fs (seen_zeros fs) fs' h2)
  | .array k t, _, hv => by
    cases hv with
    | same _ h => exact nomatch h
    | array _ _ u hv =>
      refine .array k t u _ _ fun i v v' h h' => ?_
      have h : (List.replicate k (zero X t))[i]? = some v := h
      have h' : (List.replicate k (zero X u))[i]? = some v' := h'
      rw [List.getElem?_replicate] at h h'
      split at h
      · rename_i hi
        rw [if_pos hi] at h'
        cases h; cases h'
        exact seen_zero t u hv
      · exact nomatch h
  | .int w, _, hv => by
    cases hv with
    | same _ h => exact nomatch h
    | int _ w' hw => exact .int w w' 0 0 (by simp)
  | .uint w, _, hv => by
    cases hv with
    | same _ h => exact nomatch h
    | uint _ w' hw => exact .uint w w' 0 0 (by simp)
  | .ptr t, _, hv => by
    cases hv with
    | same _ h => exact nomatch h
    | ptr _ u hv => exact .nilPtr t u
  | .slice t, _, hv => by
    cases hv with
    | same _ h => exact nomatch h
    | slice _ u hv => exact .nilSlice t u
  | .map k t, _, hv => by
    cases hv with
    | same _ h => exact nomatch h
    | map _ _ u hv => exact .nilMap k t u
  | .bool, _, hv | .float64, _, hv | .float32, _, hv | .string, _, hv | .any, _, hv | .node, _, hv | .time, _, hv | .encTime, _, hv | .encDur, _, hv | .func, _, hv | .chan, _, hv
  | .iface, _, hv => by
    cases hv
    exact .same _ _ rfl
theorem seen_zeros : ∀ (fs : Fields) (k : Str) (t : Ty), HasField fs k t → ∀ t', Version t t' → Seen t t' (zero X t) (zero X t')
  | .nil, _, _, h => h.elim
  | .cons f u fs, k, t, h => by
    intro t' hv
    simp only [HasField] at h
    by_cases he : Live f k ∧ t = u
    · obtain ⟨-, rfl⟩ := he
      exact seen_zero t t' hv
    · exact seen_zeros fs k t (h.resolve_left he) t' hv
end

/-- What a field gets. -/
def got (H : Handler X) (O : Order) (t : Ty) : Option (Node X) → Val X t
  | none => zero X t
  | some n => (unmarshal H O t n (zero X t)).val

theorem read_cons (H : Handler X) (O : Order) (m : List (Str × Node X)) (f : FieldInfo) (u : Ty) (fs : Fields) (h : (uFields H O (.cons f u fs) m (zeroFields X (.cons f u fs))).st = .ok) :
    ∃ w : Val X u, (uFields H O (.cons f u fs) m (zeroFields X (.cons f u fs))).val = (show FVals X (.cons f u fs) from (w, (uFields H O fs m (zeroFields X fs)).val)) ∧
      (uFields H O fs m (zeroFields X fs)).st = .ok ∧ ∀ k, Live f k → w = got H O u (lookupKey k m) := by
  simp only [uFields, zeroFields] at h ⊢
  cases hx : f.exported with
  | false =>
    rw [hx] at h
    exact ⟨_, rfl, h, fun k ⟨hk, _⟩ => by rw [hx] at hk; exact nomatch hk⟩
  | true =>
    rw [hx] at h
    simp only [if_true] at h ⊢
    cases ht : parseTag f with
    | none => rw [ht] at h; exact nomatch h
    | some tag =>
      rw [ht] at h
      simp only at h ⊢
      have hl : ∀ k, Live f k → k = tag.json := by
        rintro k ⟨-, tag', h1, -, rfl⟩
        rw [ht] at h1; cases h1; rfl
      cases hn : lookupKey tag.json m with
      | none =>
        rw [hn] at h
        exact ⟨_, rfl, h, fun k hk => by rw [hl k hk, hn]; rfl⟩
      | some n =>
        rw [hn] at h
        simp only at h ⊢
        cases hs : (unmarshal H O u n (zero X u)).st with
        | ok =>
          rw [hs] at h
          exact ⟨_, rfl, h, fun k hk => by rw [hl k hk, hn]; rfl⟩
        | err => rw [hs] at h; exact nomatch h
        | panic => rw [hs] at h; exact nomatch h

theorem fieldAt_read (H : Handler X) (O : Order) (m : List (Str × Node X)) : ∀ (fs : Fields) (k : Str) (t : Ty), (uFields H O fs m (zeroFields X fs)).st = .ok → HasField fs k t →
    FieldAt fs (uFields H O fs m (zeroFields X fs)).val k t (got H O t (lookupKey k m))
  | .nil, _, _, _, h => h.elim
  | .cons f u fs, k, t, hs, h => by
    obtain ⟨w, h1, h2, h3⟩ := read_cons H O m f u fs hs
    rw [h1]
    rcases h with ⟨h, rfl⟩ | h
    · rw [← h3 k h]
      exact .here f t fs w _ k h
    · exact .there f u fs w _ k t _ (fieldAt_read H O m fs k t h2 h)

theorem reads_fields (H : Handler X) (O : Order) (m : List (Str × Node X)) (fs : Fields) (vs : FVals X fs) (h0 : lookupKey [] m = none)
    (hm : ∀ k n, lookupKey k m = some n → ∃ t, HasField fs k t ∧ Reads H O t n) (hvs : ∀ k t, HasField fs k t → FieldAt fs vs k t (got H O t (lookupKey k m))) : ∀ (fs' : Fields),
    (∀ f ∈ fs'.infos, f.exported = true → parseTag f ≠ none) → (∀ k t t', HasField fs k t → HasField fs' k t' → Version t t') →
    (uFields H O fs' m (zeroFields X fs')).st = .ok ∧ SeenAll fs fs' vs (uFields H O fs' m (zeroFields X fs')).val
  | .nil, _, _ => ⟨rfl, .nil fs vs⟩
  | .cons f u fs', ht, hv => by
    obtain ⟨ih1, ih2⟩ := reads_fields H O m fs vs h0 hm hvs fs' (fun g hg => ht g (List.mem_cons_of_mem _ hg)) fun k t t' h1 h2 => hv k t t' h1 (Or.inr h2)
    simp only [uFields, zeroFields]
    cases hx : f.exported with
    | false => exact ⟨ih1, .fresh fs vs f u fs' _ (fun k ⟨hk, _⟩ => by rw [hx] at hk; exact nomatch hk) ih2⟩
    | true =>
      simp only [if_true]
      cases hp : parseTag f with
      | none => exact absurd hp (ht f List.mem_cons_self hx)
      | some tag =>
        simp only
        have hl : ∀ k, Live f k → k = tag.json := by
          rintro k ⟨-, tag', h1, -, rfl⟩
          rw [hp] at h1; cases h1; rfl
        cases hk : tag.skip with
        | true =>
          rw [skip_json f tag hp hk, h0]
          refine ⟨ih1, .fresh fs vs f u fs' _ (fun k ⟨_, tag', h1, h2, _⟩ => ?_) ih2⟩
          rw [hp] at h1; cases h1; rw [hk] at h2; exact nomatch h2
        | false =>
          have hlive : Live f tag.json := ⟨hx, tag, hp, hk, rfl⟩
          cases hn : lookupKey tag.json m with
          | none =>
            refine ⟨ih1, ?_⟩
            by_cases he : ∃ t, HasField fs tag.json t
            · obtain ⟨t, ht⟩ := he
              have hz := hvs tag.json t ht
              rw [hn] at hz
              exact .kept fs vs f u fs' tag.json t _ _ _ hlive hz (seen_zero t u (hv tag.json t u ht (Or.inl ⟨hlive, rfl⟩))) ih2
            · exact .fresh fs vs f u fs' _ (fun k hk => by rw [hl k hk]; exact he) ih2
          | some n =>
            obtain ⟨t, ht, hr⟩ := hm tag.json n hn
            obtain ⟨r1, r2⟩ := hr.2 u (hv tag.json t u ht (Or.inl ⟨hlive, rfl⟩))
            have hz := hvs tag.json t ht
            rw [hn] at hz
            simp only [r1]
            exact ⟨ih1, .kept fs vs f u fs' tag.json t _ _ _ hlive hz r2 ih2⟩

theorem reads_struct (H : Handler X) (hH : Lenient H) (O : Order) (J : Bool) (fs : Fields) (l : List ((Str × Str) × Node X)) (hs : (unmarshal H O (.struct fs) (wire J (.pairs l)) (zero X (.struct fs))).st = .ok)
    (hl : ∀ p ∈ l, p.1.2 ≠ [] ∧ ∃ t, HasField fs p.1.2 t ∧ Reads H O t (wire J p.2)) : Reads H O (.struct fs) (wire J (.pairs l)) := by
  refine ⟨hs, fun t' hv => ?_⟩
  cases hv with
  | same _ h => exact nomatch h
  | struct _ fs' h1 h2 =>
    let m := ofEntries (l.map fun p => (p.1.2, wire J p.2))
    have e : ∀ gs, unmarshal H O (.struct gs) (wire J (.pairs l)) (zero X (.struct gs)) = uStruct H O gs m (uFields H O gs m (zeroFields X gs)) := fun gs => struct_wire H O J gs l (zeroFields X gs)
    have hm : ∀ k n, lookupKey k m = some n → k ≠ [] ∧ ∃ t, HasField fs k t ∧ Reads H O t n := by
      intro k n hn
      have := mem_ofEntries _ _ (mem_of_lookup hn)
      obtain ⟨p, hp, he⟩ := List.mem_map.1 this
      cases he
      exact hl p hp
    have hok : (uFields H O fs m (zeroFields X fs)).st = .ok := by
      rw [e fs] at hs
      unfold uStruct at hs
      cases hu : (uFields H O fs m (zeroFields X fs)).st with
      | ok => rfl
      | err => rw [hu] at hs; exact nomatch hs
      | panic => rw [hu] at hs; exact nomatch hs
    have h0 : lookupKey [] m = none := by
      cases h : lookupKey [] m with
      | none => rfl
      | some n => exact absurd rfl (hm [] n h).1
    obtain ⟨r1, r2⟩ := reads_fields H O m fs _ h0 (fun k n h => (hm k n h).2) (fun k t h => fieldAt_read H O m fs k t hok h) fs' h1 h2
    rw [e fs, e fs']
    refine ⟨uStruct_st H hH O fs' m _ r1, ?_⟩
    have := Seen.struct fs fs' _ _ r2
    rw [uStruct_val, uStruct_val]
    exact this

/-! #### values -/

theorem mapRes_length {α β : Type} (f : α → Res β) : ∀ (l : List α) (bs : List β), mapRes f l = .ok bs → bs.length = l.length
  | [], bs, h => by injection h with h; subst h; rfl
  | a :: l, bs, h => by
    simp only [mapRes] at h
    obtain ⟨b, hb, h⟩ := bind_ok h
    obtain ⟨bs', hbs, h⟩ := bind_ok h
    injection h with h; subst h
    simp [mapRes_length f l bs' hbs]

theorem reads_nil_slice (H : Handler X) (O : Order) (t : Ty) : Reads H O (.slice t) .nil := by
  refine ⟨rfl, fun t' hv => ?_⟩
  cases hv with
  | same _ h => exact nomatch h
  | slice _ u _ => exact ⟨rfl, .nilSlice t u⟩

theorem reads_nil_map (H : Handler X) (O : Order) (k : KTy) (t : Ty) : Reads H O (.map k t) .nil := by
  refine ⟨rfl, fun t' hv => ?_⟩
  cases hv with
  | same _ h => exact nomatch h
  | map _ _ u _ => exact ⟨rfl, .nilMap k t u⟩

theorem hasField_live : ∀ (fs : Fields) (k : Str), k ∈ liveNames fs → ∃ t, HasField fs k t
  | .nil, _, h => nomatch h
  | .cons f t fs, k, h => by
    simp only [liveNames] at h
    rcases List.mem_append.1 h with h | h
    · refine ⟨t, Or.inl ⟨?_, rfl⟩⟩
      cases hx : f.exported with
      | false => rw [hx] at h; simp at h
      | true =>
        rw [hx] at h
        cases hp : parseTag f with
        | none => rw [hp] at h; simp at h
        | some tag =>
          rw [hp] at h
          cases hs : tag.skip with
          | true => simp [hs] at h
          | false => simp [hs] at h; exact ⟨hx, tag, hp, hs, h.symm⟩
    · obtain ⟨u, hu⟩ := hasField_live fs k h
      exact ⟨u, Or.inr hu⟩

theorem ok_at (hX : Laws X) (J : Bool) (O O' : Order) (H : Handler X) (t : Ty) (v : Val X t) (n : Node X) (hf : Faithful J t v) (h : marshal O t v = .ok n) :
    unmarshal H O' t (wire J n) (zero X t) = .done v := by
  obtain ⟨n', h1, h2⟩ := round hX J O O' H t v hf
  rw [h] at h1; cases h1
  exact h2

mutual
theorem carry (hX : Laws X) (J : Bool) (O O' : Order) (H : Handler X) (hH : Lenient H) : ∀ (t : Ty) (v : Val X t) (n : Node X), Faithful J t v → marshal O t v = .ok n → Reads H O' t (wire J n)
  | .bool, v, n, hf, h => reads_leaf H O' _ _ rfl (by rw [ok_at hX J O O' H _ v n hf h]; rfl)
  | .float64, v, n, hf, h => reads_leaf H O' _ _ rfl (by rw [ok_at hX J O O' H _ v n hf h]; rfl)
  | .float32, v, n, hf, h => reads_leaf H O' _ _ rfl (by rw [ok_at hX J O O' H _ v n hf h]; rfl)
  | .string, v, n, hf, h => reads_leaf H O' _ _ rfl (by rw [ok_at hX J O O' H _ v n hf h]; rfl)
  | .any, v, n, hf, h => reads_leaf H O' _ _ rfl (by rw [ok_at hX J O O' H _ v n hf h]; rfl)
  | .node, v, n, hf, h => reads_leaf H O' _ _ rfl (by rw [ok_at hX J O O' H _ v n hf h]; rfl)
  | .time, v, n, hf, h => reads_leaf H O' _ _ rfl (by rw [ok_at hX J O O' H _ v n hf h]; rfl)
  | .encTime, v, n, hf, h => reads_leaf H O' _ _ rfl (by rw [ok_at hX J O O' H _ v n hf h]; rfl)
  | .encDur, v, n, hf, h => reads_leaf H O' _ _ rfl (by rw [ok_at hX J O O' H _ v n hf h]; rfl)
  | .func, v, n, hf, h => hf.elim
  | .chan, v, n, hf, h => hf.elim
  | .iface, v, n, hf, h => reads_leaf H O' _ _ rfl (by rw [ok_at hX J O O' H _ v n hf h]; rfl)
  | .int w, v, n, hf, h => by
    simp only [marshal] at h; injection h with h; subst h
    exact reads_int H O' w v _ (wire_int64 J w v)
  | .uint w, v, n, hf, h => by
    simp only [marshal] at h; injection h with h; subst h
    exact reads_uint H O' w v _ (wire_uint64 J w v hf)
  | .ptr t, v, n, hf, h => by
    have hok := ok_at hX J O O' H _ v n hf h
    match v, hf, h, hok with
    | none, hf, h, _ =>
      have hf : t.valueMarshaler = false := hf
      simp only [marshal, hf] at h
      injection h with h; subst h
      exact reads_ptr H O' t _ (Or.inl (by cases J <;> rfl))
    | some x, hf, h, hok =>
      simp only [marshal] at h
      rcases ptrFix_ok t _ n h with h | ⟨y, hy, hm, ht⟩
      · exact reads_ptr H O' t _ (Or.inr (carry hX J O O' H hH t x n hf.1 h))
      · subst ht
        simp only [marshal] at hy
        injection hy with hy; subst hy
        have hm := (marshalNode_time (X := X) x).symm.trans hm
        injection hm with hm; subst hm
        have hne : wire J (Node.str (X := X) (X.tFmt x)) ≠ .nil := by cases J <;> exact fun h => nomatch h
        rw [un_ptr H O' .time _ hne] at hok
        exact reads_ptr H O' .time _ (Or.inr (reads_leaf H O' .time _ rfl (congrArg Out.st hok)))
  | .slice t, v, n, hf, h => by
    match v, hf, h with
    | none, hf, h =>
      simp only [marshal] at h; injection h with h; subst h
      cases J <;> exact reads_nil_slice H O' t
    | some l, hf, h =>
      have hf : ∀ x ∈ l, Faithful J t x := hf
      simp only [marshal] at h
      obtain ⟨ns, hns, h⟩ := bind_ok h
      injection h with h; subst h
      rw [wire_list]
      refine reads_slice H O' t _ fun n hn => ?_
      obtain ⟨n, hn', rfl⟩ := List.mem_map.1 hn
      obtain ⟨x, hx, hm⟩ := mapRes_mem _ _ _ hns n hn'
      exact carry hX J O O' H hH t x n (hf x hx) hm
  | .array k t, ⟨l, hl⟩, n, hf, h => by
    have hf : ∀ x ∈ l, Faithful J t x := hf
    simp only [marshal] at h
    obtain ⟨ns, hns, h⟩ := bind_ok h
    injection h with h; subst h
    rw [wire_list]
    refine reads_array H O' k t _ ?_ fun n hn => ?_
    · rw [List.length_map, mapRes_length _ _ _ hns]; exact hl
    · obtain ⟨n, hn', rfl⟩ := List.mem_map.1 hn
      obtain ⟨x, hx, hm⟩ := mapRes_mem _ _ _ hns n hn'
      exact carry hX J O O' H hH t x n (hf x hx) hm
  | .map k t, v, n, hf, h => by
    have hok := ok_at hX J O O' H _ v n hf h
    match v, hf, h with
    | none, hf, h =>
      simp only [marshal] at h; injection h with h; subst h
      cases J <;> exact reads_nil_map H O' k t
    | some m, hf, h =>
      obtain ⟨_, hf⟩ := (hf : SortedKeys m ∧ ∀ e ∈ m, normKey k e.1 = some e.1 ∧ Faithful J t e.2)
      simp only [marshal] at h
      obtain ⟨ns, hns, h⟩ := bind_ok h
      injection h with h; subst h
      rw [wire_map] at hok ⊢
      refine reads_map H O' k t _ (fun e he => ?_) (by rw [hok]; rfl)
      obtain ⟨e, he', rfl⟩ := List.mem_map.1 he
      obtain ⟨x, hx, hm⟩ := mapRes_mem _ _ _ hns e (mem_ofEntries _ _ he')
      obtain ⟨y, hy, hm⟩ := bind_ok hm
      split at hm
      · cases hm
      · injection hm with hm; subst hm
        exact carry hX J O O' H hH t x.2 _ (hf x ((O.isPerm _).mem_iff.1 hx)).2 hy
  | .struct fs, v, n, hf, h => by
    have hok := ok_at hX J O O' H _ v n hf h
    simp only [marshal] at h
    obtain ⟨ns, hns, h⟩ := bind_ok h
    injection h with h; subst h
    exact reads_struct H hH O' J fs ns (by rw [hok]; rfl) fun p hp => carryFields hX J O O' H hH fs v ns hf.2.2 hf.2.1 hns p hp
theorem carryFields (hX : Laws X) (J : Bool) (O O' : Order) (H : Handler X) (hH : Lenient H) : ∀ (fs : Fields) (v : FVals X fs) (l : List ((Str × Str) × Node X)), FaithfulFields J fs v → [] ∉ liveNames fs →
    marshalFields O fs v = .ok l → ∀ p ∈ l, p.1.2 ≠ [] ∧ ∃ t, HasField fs p.1.2 t ∧ Reads H O' t (wire J p.2)
  | .nil, _, l, _, _, h => by simp only [marshalFields] at h; injection h with h; subst h; simp
  | .cons f t fs, (v, vs), l, hf, he, h => by
    obtain ⟨h1, h2⟩ := hf
    have he' : [] ∉ liveNames fs := fun h => he (by simp only [liveNames]; exact List.mem_append.2 (.inr h))
    have lift : ∀ l' : List ((Str × Str) × Node X), (∀ p ∈ l', p.1.2 ≠ [] ∧ ∃ t, HasField fs p.1.2 t ∧ Reads H O' t (wire J p.2)) → ∀ p ∈ l', p.1.2 ≠ [] ∧ ∃ u, HasField (.cons f t fs) p.1.2 u ∧ Reads H O' u (wire (X := X) J p.2) :=
      fun l' h p hp => ⟨(h p hp).1, (h p hp).2.imp fun u hu => ⟨Or.inr hu.1, hu.2⟩⟩
    simp only [marshalFields] at h
    cases hx : f.exported with
    | false =>
      rw [hx] at h
      exact lift l (carryFields hX J O O' H hH fs vs l h2 he' h)
    | true =>
      cases ht : parseTag f with
      | none => rw [hx, ht] at h1; exact h1.elim
      | some tag =>
        rw [hx, ht] at h1 h
        simp only at h1 h
        cases hsk : tag.skip with
        | true =>
          rw [hsk] at h
          exact lift l (carryFields hX J O O' H hH fs vs l h2 he' h)
        | false =>
          rw [hsk] at h h1
          simp only [Bool.false_eq_true, if_false, if_true] at h1 h
          obtain ⟨n, hn, h⟩ := bind_ok h
          obtain ⟨l', hl', h⟩ := bind_ok h
          injection h with h
          have hrec := lift l' (carryFields hX J O O' H hH fs vs l' h2 he' hl')
          have hg := carry hX J O O' H hH t v n h1.1 hn
          subst h
          intro e hmem
          split at hmem
          · exact hrec e hmem
          · rcases List.mem_cons.1 hmem with rfl | hmem
            · refine ⟨fun h0 => he ?_, t, Or.inl ⟨⟨hx, tag, ht, hsk, rfl⟩, rfl⟩, hg⟩
              simp only [liveNames]
              refine List.mem_append.2 (.inl ?_)
              have h0 : tag.json = [] := h0
              simp [hx, ht, hsk, h0]
            · exact hrec e hmem
end

/-! ### the theorems -/

/-- C182: what one program marshals, a program with another version of the type unmarshals, unless it refuses unknown fields: what both versions have is there, and what only the reader has is zero. -/
theorem C182_node (hX : Laws X) (O O' : Order) (H : Handler X) (hH : Lenient H) (t t' : Ty) (hv : Version t t') (v : Val X t) (hf : Faithful false t v) :
    ∃ n, marshal O t v = .ok n ∧ (unmarshal H O' t' n (zero X t')).st = .ok ∧ Seen t t' v (unmarshal H O' t' n (zero X t')).val := by
  obtain ⟨n, h1, h2⟩ := round hX false O O' H t v hf
  obtain ⟨r1, r2⟩ := (carry hX false O O' H hH t v n hf h1).2 t' hv
  rw [h2] at r2
  exact ⟨n, h1, r1, r2⟩

/-- C182: the same across JSON text, if the value is nested at most 10000 deep. -/
theorem C182_json (hX : Laws X) (O O' : Order) (H : Handler X) (hH : Lenient H) (t t' : Ty) (hv : Version t t') (v : Val X t) (hf : Faithful true t v) :
    ∃ n, marshal O t v = .ok n ∧ (n.depth ≤ maxDepth → ∃ s, marshalJSON O t v = .ok s ∧ (unmarshalJSON H O' t' s (zero X t')).st = .ok ∧
      Seen t t' v (unmarshalJSON H O' t' s (zero X t')).val) := by
  obtain ⟨n, h1, h2⟩ := round hX true O O' H t v hf
  refine ⟨n, h1, fun hd => ?_⟩
  obtain ⟨hwf, he⟩ := marshal_good hX O t v n hf h1
  have henc : encode n = .ok n.text := by unfold encode; rw [if_pos (he hd)]
  obtain ⟨r1, r2⟩ := (carry hX true O O' H hH t v n hf h1).2 t' hv
  rw [h2] at r2
  refine ⟨n.text, by simp only [marshalJSON, h1, Res.bind, henc], ?_⟩
  unfold unmarshalJSON
  rw [C39_round_trip hX n hwf n.text henc hd]
  exact ⟨r1, r2⟩

/-- C182: so each field the reader has is the one the writer has under that name, as it is seen there, or is zero if the writer has none. -/
theorem C182_fields (fs : Fields) (vs : FVals X fs) : ∀ (fs' : Fields) (vs' : FVals X fs') (k : Str) (t' : Ty) (v' : Val X t'), SeenAll fs fs' vs vs' → FieldAt fs' vs' k t' v' →
    (∃ t v, FieldAt fs vs k t v ∧ Seen t t' v v') ∨ ((¬ ∃ t, HasField fs k t) ∧ v' = zero X t') := by
  intro fs' vs' k t' v' hs hf
  induction hf with
  | here f t' gs v' ws k hl =>
    cases hs with
    | kept _ _ _ _ _ k' t v _ _ hl' h1 h2 _ => rw [live_unique f k k' hl hl']; exact .inl ⟨t, v, h1, h2⟩
    | fresh _ _ _ _ _ _ h1 _ => exact .inr ⟨h1 k hl, rfl⟩
  | there f u gs w ws k t' v' _ ih =>
    cases hs with
    | kept _ _ _ _ _ _ _ _ _ _ _ _ _ h => exact ih h
    | fresh _ _ _ _ _ _ _ h => exact ih h

/-! ### examples -/

/-- `type User struct { Id int32; Old string; Tags []Tag }` with `type Tag struct { Name string }`, and a newer one, `type User struct { Tags []Tag; Id int64; New string }` with
`type Tag struct { Color string; Name string }`. -/
def tag1 : Fields := .cons { name := lit "Name" } .string .nil
def tag2 : Fields := .cons { name := lit "Color" } .string (.cons { name := lit "Name" } .string .nil)
def user1 : Fields := .cons { name := lit "Id" } (.int .w32) (.cons { name := lit "Old" } .string (.cons { name := lit "Tags" } (.slice (.struct tag1)) .nil))
def user2 : Fields := .cons { name := lit "Tags" } (.slice (.struct tag2)) (.cons { name := lit "Id" } (.int .w64) (.cons { name := lit "New" } .string .nil))

theorem live_plain (s k : Str) (tag : Tag) (ht : parseTag { name := s } = some tag) (h : Live { name := s } k) : tag.json = k := by
  obtain ⟨-, tag', h1, -, h2⟩ := h
  rw [ht] at h1; cases h1; exact h2

theorem version_tag : Version (.struct tag1) (.struct tag2) := by
  refine .struct _ _ (by decide) fun k t t' h h' => ?_
  rcases h with ⟨h, rfl⟩ | h
  · rcases h' with ⟨-, rfl⟩ | ⟨-, rfl⟩ | h'
    · exact .same _ rfl
    · exact .same _ rfl
    · exact h'.elim
  · exact h.elim

/-- The newer one is a version of the older one, and the other way round only if no number becomes narrower. -/
theorem version_user : Version (.struct user1) (.struct user2) := by
  have e : ∀ s k, Live { name := lit s } k → ∀ tag, parseTag { name := lit s } = some tag → k = tag.json := fun s k h tag ht => (live_plain _ k tag ht h).symm
  refine .struct _ _ (by decide) fun k t t' h h' => ?_
  rcases h with ⟨h, rfl⟩ | ⟨h, rfl⟩ | ⟨h, rfl⟩ | h
  · have := e "Id" k h _ rfl
    subst this
    rcases h' with ⟨h', rfl⟩ | ⟨-, rfl⟩ | ⟨h', rfl⟩ | h'
    · exact absurd (e "Tags" _ h' _ rfl) (by decide)
    · exact .int .w32 .w64 (by decide)
    · exact absurd (e "New" _ h' _ rfl) (by decide)
    · exact h'.elim
  · have := e "Old" k h _ rfl
    subst this
    rcases h' with ⟨h', rfl⟩ | ⟨h', rfl⟩ | ⟨-, rfl⟩ | h'
    · exact absurd (e "Tags" _ h' _ rfl) (by decide)
    · exact absurd (e "Id" _ h' _ rfl) (by decide)
    · exact .same _ rfl
    · exact h'.elim
  · have := e "Tags" k h _ rfl
    subst this
    rcases h' with ⟨-, rfl⟩ | ⟨h', rfl⟩ | ⟨h', rfl⟩ | h'
    · exact .slice _ _ version_tag
    · exact absurd (e "Id" _ h' _ rfl) (by decide)
    · exact absurd (e "New" _ h' _ rfl) (by decide)
    · exact h'.elim
  · exact h.elim
example : ¬ Version (.struct user2) (.struct user1) := by
  intro h
  cases h with
  | struct _ _ _ h =>
    have := h (lit "Id") (.int .w64) (.int .w32) (Or.inr (Or.inl ⟨⟨rfl, _, rfl, rfl, rfl⟩, rfl⟩)) (Or.inl ⟨⟨rfl, _, rfl, rfl, rfl⟩, rfl⟩)
    cases this with
    | int _ _ h => exact absurd h (by decide)

/-- `{"Id":7,"Old":"o","Tags":[{"Name":"n"}]}` in the newer version: the tag, the number, and empty strings. -/
example : (marshal (X := XT) sortedOrder (.struct user1) (show FVals XT user1 from ((7 : BitVec 32), lit "o", some [(show FVals XT tag1 from (lit "n", ()))], ()))).bind
    (fun n => let r := unmarshal (X := XT) ⟨none⟩ sortedOrder (.struct user2) n (zero XT (.struct user2)); .ok (r.st, (show FVals XT user2 from r.val))) =
    .ok (.ok, (show FVals XT user2 from (some [(show FVals XT tag2 from ([], lit "n", ()))], (7 : BitVec 64), [], ()))) := rfl

end Verif.Enc.Versions

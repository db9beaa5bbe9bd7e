import Verif.Enc.TypedProps
/-!
# Unmarshalling again, and one document after the other (enc/handler.go L51-160, enc/map.go L51-125, enc/list.go L40-75) (C181)
-/
set_option autoImplicit false
namespace Verif.Enc.Again
open Verif.Strconv Verif.Enc

variable {X : Ext}

/-! ### specification -/

mutual
/-- The document decides what all of the variable is: for a struct, it has every field, which is exported, and decides those. Variables of other types are always written as a whole. -/
def Covers {X : Ext} : Ty → Node X → Prop
  | .struct fs, .map m => CoversAll fs m
  | .struct fs, .pairs l => CoversAll fs (asMap l)
  | _, _ => True
/-- of the fields of a struct -/
def CoversAll {X : Ext} : Fields → List (Str × Node X) → Prop
  | .nil, _ => True
  | .cons f t fs, m => (f.exported = true ∧ ∃ tag n, parseTag f = some tag ∧ lookupKey tag.json m = some n ∧ Covers t n) ∧ CoversAll fs m
end

/-- No field is named by both objects. -/
def Apart (fs : Fields) (m m' : List (Str × Node X)) : Prop := ∀ f ∈ fs.infos, ∀ tag, f.exported = true → parseTag f = some tag → lookupKey tag.json m = none ∨ lookupKey tag.json m' = none

/-- An object that has for each field what one of the two has. -/
def Joins (fs : Fields) (m m' j : List (Str × Node X)) : Prop :=
  ∀ f ∈ fs.infos, ∀ tag, f.exported = true → parseTag f = some tag → lookupKey tag.json j = (lookupKey tag.json m).orElse fun _ => lookupKey tag.json m'

/-! ### lemmas -/

/-- A call whose status and reports do not depend on the variable; doing it again changes nothing. -/
def Steady {α : Type} (f : α → Out X α) : Prop :=
  ∃ (g : α → α) (st : Status) (calls : List (Str × Node X)), (∀ old, f old = ⟨g old, st, calls⟩) ∧ ∀ v, g (g v) = g v

/-- A call that writes one value, whatever the variable was, or nothing, which is a failure. -/
def Whole {α : Type} (f : α → Out X α) : Prop :=
  ∃ (w : Option α) (st : Status) (calls : List (Str × Node X)), (∀ old, f old = ⟨w.getD old, st, calls⟩) ∧ (st = .ok → w ≠ none)

theorem Whole.steady {α : Type} {f : α → Out X α} (h : Whole f) : Steady f := by
  obtain ⟨w, st, calls, he, -⟩ := h
  refine ⟨fun old => w.getD old, st, calls, he, fun v => ?_⟩
  cases w <;> rfl

theorem whole_done {α : Type} {f : α → Out X α} (v : α) (h : ∀ old, f old = .done v) : Whole f := ⟨some v, .ok, [], h, fun _ h => nomatch h⟩

theorem whole_fail {α : Type} {f : α → Out X α} (s : Status) (hs : s ≠ .ok) (h : ∀ old, f old = .mk' old s) : Whole f := ⟨none, s, [], h, fun h _ => hs h⟩

theorem whole_num {α : Type} (n : Node X) (r : Option α) (z : α) : Whole (fun old => numOut n r old z) := by
  unfold numOut
  cases n with
  | nil => exact whole_done z fun _ => rfl
  | dur d => exact whole_fail .panic (by decide) fun _ => rfl
  | _ => cases r with
    | some v => exact whole_done v fun _ => rfl
    | none => exact whole_fail .err (by decide) fun _ => rfl

theorem whole_assign {α β : Type} (r : Out X α) (f : α → β) : Whole (fun old => r.assign f old) := by
  unfold Out.assign
  cases hs : r.st with
  | ok => exact ⟨some (f r.val), .ok, r.calls, fun _ => rfl, fun _ h => nomatch h⟩
  | err => exact ⟨none, .err, r.calls, fun _ => rfl, fun h => nomatch h⟩
  | panic => exact ⟨none, .panic, r.calls, fun _ => rfl, fun h => nomatch h⟩

theorem whole_array {α : Type} (k : Nat) (f : Node X → Out X α) (n : Node X) (z : { l : List α // l.length = k }) : Whole (fun old => uArray k f n z old) := by
  unfold uArray
  cases n with
  | nil => exact whole_done z fun _ => rfl
  | list l =>
    by_cases hl : l.length = k
    · simp only [if_pos hl]
      cases hs : (uElems f l).st with
      | ok =>
        have hv := uElems_len f l hs
        refine ⟨some ⟨(uElems f l).val, hv.trans hl⟩, .ok, (uElems f l).calls, fun old => ?_, fun _ h => nomatch h⟩
        unfold Out.assign
        rw [hs]
        simp [hv.trans hl]
      | err => exact ⟨none, .err, (uElems f l).calls, fun _ => by unfold Out.assign; rw [hs]; rfl, fun h => nomatch h⟩
      | panic => exact ⟨none, .panic, (uElems f l).calls, fun _ => by unfold Out.assign; rw [hs]; rfl, fun h => nomatch h⟩
    · simp only [if_neg hl]
      exact whole_fail .err (by decide) fun _ => rfl
  | _ => exact whole_fail .err (by decide) fun _ => rfl

/-- The struct types, the only ones that look at what the variable was. -/
def isStruct : Ty → Bool
  | .struct _ => true
  | .bool | .int _ | .uint _ | .float64 | .float32 | .string | .any | .node | .time | .encTime | .encDur | .func | .chan | .iface | .ptr _ | .slice _ | .array _ _ | .map _ _ => false

theorem whole (H : Handler X) (O : Order) (t : Ty) (ht : isStruct t = false) (n : Node X) : Whole (fun old => unmarshal H O t n old) := by
  cases t with
  | bool =>
    simp only [unmarshal]; unfold uBool
    cases n with
    | nil => exact whole_done false fun _ => rfl
    | bool b => exact whole_done b fun _ => rfl
    | _ => exact whole_fail .err (by decide) fun _ => rfl
  | int w => simp only [unmarshal]; exact whole_num n _ _
  | uint w => simp only [unmarshal]; exact whole_num n _ _
  | float64 => simp only [unmarshal]; exact whole_num n _ _
  | float32 => simp only [unmarshal]; exact whole_num n _ _
  | string =>
    simp only [unmarshal]; unfold uString
    cases n with
    | str s => exact whole_done s fun _ => rfl
    | _ => exact whole_num _ _ _
  | any => simp only [unmarshal]; exact whole_done _ fun _ => rfl
  | node => simp only [unmarshal]; exact whole_done _ fun _ => rfl
  | time =>
    simp only [unmarshal]; unfold uTime
    by_cases he : n.encodable
    · simp only [if_pos he]
      cases n with
      | nil => exact whole_done _ fun _ => rfl
      | _ =>
        dsimp only
        split
        · exact whole_done _ fun _ => rfl
        · exact whole_fail .err (by decide) fun _ => rfl
    · simp only [if_neg he]
      exact whole_fail .panic (by decide) fun _ => rfl
  | encTime =>
    simp only [unmarshal]; unfold uEncTime
    split
    · exact whole_done _ fun _ => rfl
    · exact whole_fail _ (by split <;> decide) fun _ => rfl
  | encDur =>
    simp only [unmarshal]; unfold uEncDur
    cases n with
    | nil => exact whole_done _ fun _ => rfl
    | _ =>
      dsimp only
      split
      · exact whole_done _ fun _ => rfl
      · exact whole_fail _ (by split <;> decide) fun _ => rfl
  | func =>
    simp only [unmarshal]; unfold uOpaque
    cases n with
    | nil => exact whole_done _ fun _ => rfl
    | _ => exact whole_fail .err (by decide) fun _ => rfl
  | chan =>
    simp only [unmarshal]; unfold uOpaque
    cases n with
    | nil => exact whole_done _ fun _ => rfl
    | _ => exact whole_fail .err (by decide) fun _ => rfl
  | iface => simp only [unmarshal]; exact ⟨some (uIface n).val, (uIface n).st, (uIface n).calls, fun _ => rfl, fun _ h => nomatch h⟩
  | ptr t => simp only [unmarshal]; exact ⟨some (uPtr _ n).val, (uPtr _ n).st, (uPtr _ n).calls, fun _ => rfl, fun _ h => nomatch h⟩
  | slice t =>
    simp only [unmarshal]; unfold uSlice
    cases n with
    | nil => exact whole_done _ fun _ => rfl
    | list l => exact whole_assign _ _
    | _ => exact whole_fail .err (by decide) fun _ => rfl
  | array k t => simp only [unmarshal]; exact whole_array k _ n _
  | map k t =>
    simp only [unmarshal]; unfold uMap
    cases n with
    | nil => exact whole_done _ fun _ => rfl
    | map m => exact whole_assign _ _
    | pairs l => exact whole_assign _ _
    | _ => exact whole_fail .err (by decide) fun _ => rfl
  | struct fs => exact nomatch ht

theorem steady_struct (H : Handler X) (O : Order) (fs : Fields) (h : ∀ m, Steady (fun old => uFields H O fs m old)) (n : Node X) :
    Steady (fun old => unmarshal H O (.struct fs) n old) := by
  have key : ∀ m, Steady (fun old => uStruct H O fs m (uFields H O fs m old)) := by
    intro m
    obtain ⟨g, st, calls, he, hg⟩ := h m
    dsimp only at he
    cases hs : st with
    | ok => exact ⟨g, (report H O fs m).1, calls ++ (report H O fs m).2, fun old => by dsimp only; rw [he old, hs]; rfl, hg⟩
    | err => exact ⟨g, .err, calls, fun old => by dsimp only; rw [he old, hs]; rfl, hg⟩
    | panic => exact ⟨g, .panic, calls, fun old => by dsimp only; rw [he old, hs]; rfl, hg⟩
  simp only [unmarshal]; unfold uObject
  cases n with
  | nil => exact (whole_done _ fun _ => rfl).steady
  | map m => exact key m
  | pairs l => exact key (asMap l)
  | _ => exact (whole_fail .err (by decide) fun _ => rfl).steady

mutual
theorem steady (H : Handler X) (O : Order) : ∀ (t : Ty) (n : Node X), Steady (fun old => unmarshal H O t n old)
  | .struct fs, n => steady_struct H O fs (fun m => steadyFields H O fs m) n
  | .bool, n | .int _, n | .uint _, n | .float64, n | .float32, n | .string, n | .any, n | .node, n | .time, n | .encTime, n | .encDur, n | .func, n | .chan, n | .iface, n
  | .ptr _, n | .slice _, n | .array _ _, n | .map _ _, n => (whole H O _ rfl n).steady
theorem steadyFields (H : Handler X) (O : Order) : ∀ (fs : Fields) (m : List (Str × Node X)), Steady (fun old => uFields H O fs m old)
  | .nil, m => ⟨fun v => v, .ok, [], fun _ => rfl, fun _ => rfl⟩
  | .cons f t fs, m => by
    obtain ⟨gs, sts, cs, hes, hgs⟩ := steadyFields H O fs m
    dsimp only at hes
    have keep : ∀ F : FVals X (.cons f t fs) → Out X (FVals X (.cons f t fs)),
        (∀ v vs, F (v, vs) = ⟨(v, (uFields H O fs m vs).val), (uFields H O fs m vs).st, (uFields H O fs m vs).calls⟩) → Steady F := fun F hF =>
      ⟨fun (v, vs) => (v, gs vs), sts, cs, fun (v, vs) => by rw [hF, hes vs], fun (v, vs) => by show (v, gs (gs vs)) = (v, gs vs); rw [hgs]⟩
    by_cases hx : f.exported = true
    · cases ht : parseTag f with
      | none => exact ⟨fun v => v, .panic, [], fun (v, vs) => by simp only [uFields, hx, if_true, ht]; rfl, fun _ => rfl⟩
      | some tag =>
        cases hl : lookupKey tag.json m with
        | none => exact keep _ fun v vs => by simp only [uFields, hx, if_true, ht, hl]
        | some n =>
          obtain ⟨g, st, c, he, hg⟩ := steady H O t n
          dsimp only at he
          have e : ∀ (v : Val X t) (vs : FVals X fs), uFields H O (.cons f t fs) m (v, vs) = match st with
              | .ok => ⟨(g v, gs vs), sts, c ++ cs⟩
              | s => ⟨(g v, vs), s, c⟩ := by
            intro v vs
            simp only [uFields, hx, if_true, ht, hl, he v, hes vs]
            cases st <;> rfl
          cases st with
          | ok => exact ⟨fun (v, vs) => (g v, gs vs), sts, c ++ cs, fun (v, vs) => e v vs, fun (v, vs) => by show (g (g v), gs (gs vs)) = (g v, gs vs); rw [hg, hgs]⟩
          | err => exact ⟨fun (v, vs) => (g v, vs), .err, c, fun (v, vs) => e v vs, fun (v, vs) => by show (g (g v), vs) = (g v, vs); rw [hg]⟩
          | panic => exact ⟨fun (v, vs) => (g v, vs), .panic, c, fun (v, vs) => e v vs, fun (v, vs) => by show (g (g v), vs) = (g v, vs); rw [hg]⟩
    · exact keep _ fun v vs => by simp only [uFields, hx]; rfl
end

/-- **C181.** Whether unmarshalling succeeds, and what is reported, does not depend on what the variable was. -/
theorem C181_status (H : Handler X) (O : Order) (t : Ty) (n : Node X) (old old' : Val X t) :
    (unmarshal H O t n old).st = (unmarshal H O t n old').st ∧ (unmarshal H O t n old).calls = (unmarshal H O t n old').calls := by
  obtain ⟨g, st, c, he, -⟩ := steady H O t n
  dsimp only at he
  exact ⟨by rw [he old, he old'], by rw [he old, he old']⟩

theorem Whole.fresh {α : Type} {f : α → Out X α} (h : Whole f) (old old' : α) (hk : (f old).st = .ok) : (f old).val = (f old').val := by
  obtain ⟨w, st, calls, he, hw⟩ := h
  rw [he] at hk ⊢
  rw [he]
  cases w with
  | some v => rfl
  | none => exact absurd rfl (hw hk)

theorem uStruct_ok (H : Handler X) (O : Order) (fs : Fields) (m : List (Str × Node X)) (r : Out X (FVals X fs)) (h : (uStruct H O fs m r).st = .ok) : r.st = .ok := by
  unfold uStruct at h
  split at h
  · assumption
  · exact h

mutual
theorem coverT (H : Handler X) (O : Order) : ∀ (t : Ty) (n : Node X), Covers t n → ∀ old old', (unmarshal H O t n old).st = .ok → (unmarshal H O t n old).val = (unmarshal H O t n old').val
  | .struct fs, n, hc, old, old', hk => by
    simp only [unmarshal] at hk ⊢
    unfold uObject at hk ⊢
    cases n with
    | nil => rfl
    | map m =>
      simp only [Covers] at hc
      dsimp only at hk ⊢
      rw [uStruct_val, uStruct_val]
      exact coverF H O fs m hc old old' (uStruct_ok H O fs m _ hk)
    | pairs l =>
      simp only [Covers] at hc
      dsimp only at hk ⊢
      rw [uStruct_val, uStruct_val]
      exact coverF H O fs (asMap l) hc old old' (uStruct_ok H O fs _ _ hk)
    | _ => exact nomatch hk
  | .bool, n, _, old, old', hk | .int _, n, _, old, old', hk | .uint _, n, _, old, old', hk | .float64, n, _, old, old', hk | .float32, n, _, old, old', hk
  | .string, n, _, old, old', hk | .any, n, _, old, old', hk | .node, n, _, old, old', hk | .time, n, _, old, old', hk | .encTime, n, _, old, old', hk
  | .encDur, n, _, old, old', hk | .func, n, _, old, old', hk | .chan, n, _, old, old', hk | .iface, n, _, old, old', hk
  | .ptr _, n, _, old, old', hk | .slice _, n, _, old, old', hk | .array _ _, n, _, old, old', hk | .map _ _, n, _, old, old', hk => (whole H O _ rfl n).fresh old old' hk
theorem coverF (H : Handler X) (O : Order) : ∀ (fs : Fields) (m : List (Str × Node X)), CoversAll fs m → ∀ old old', (uFields H O fs m old).st = .ok →
    (uFields H O fs m old).val = (uFields H O fs m old').val
  | .nil, _, _, _, _, _ => rfl
  | .cons f t fs, m, hc, (v, vs), (v', vs'), hk => by
    simp only [CoversAll] at hc
    obtain ⟨⟨hx, tag, n, ht, hl, hn⟩, hcs⟩ := hc
    obtain ⟨hst, -⟩ := C181_status H O t n v v'
    simp only [uFields, hx, if_true, ht, hl] at hk ⊢
    cases hs : (unmarshal H O t n v).st with
    | ok =>
      rw [hs] at hst hk
      dsimp only at hk ⊢
      rw [← hst]
      dsimp only
      rw [coverT H O t n hn v v' hs, coverF H O fs m hcs vs vs' hk]
    | err => rw [hs] at hk; exact nomatch hk
    | panic => rw [hs] at hk; exact nomatch hk
end

/-- The fields of two objects that name no field both, one after the other, are those of an object that has them all. -/
theorem fields_join (H : Handler X) (O : Order) : ∀ (fs : Fields) (m m' j : List (Str × Node X)) (old : FVals X fs), Apart fs m m' → Joins fs m m' j →
    (uFields H O fs m old).st = .ok → (uFields H O fs m' old).st = .ok →
    (uFields H O fs j old).st = .ok ∧ (uFields H O fs m' (uFields H O fs m old).val).val = (uFields H O fs j old).val := by
  intro fs
  induction fs using Fields.rec (motive_1 := fun _ => True) with
  | nil => intros; exact ⟨rfl, rfl⟩
  | cons f t fs _ ih =>
    intro m m' j ⟨v, vs⟩ ha hj h1 h2
    have ha' : Apart fs m m' := fun g hg => ha g (List.mem_cons_of_mem _ hg)
    have hj' : Joins fs m m' j := fun g hg => hj g (List.mem_cons_of_mem _ hg)
    by_cases hx : f.exported = true
    · cases ht : parseTag f with
      | none => simp only [uFields, hx, if_true, ht] at h1; exact nomatch h1
      | some tag =>
        have hjf := hj f List.mem_cons_self tag hx ht
        rcases ha f List.mem_cons_self tag hx ht with hl | hl
        · cases hl' : lookupKey tag.json m' with
          | none =>
            rw [hl, hl'] at hjf
            simp only [Option.orElse] at hjf
            simp only [uFields, hx, if_true, ht, hl, hl', hjf] at h1 h2 ⊢
            obtain ⟨i1, i2⟩ := ih m m' j vs ha' hj' h1 h2
            exact ⟨i1, by rw [i2]⟩
          | some n =>
            rw [hl, hl'] at hjf
            simp only [Option.orElse] at hjf
            simp only [uFields, hx, if_true, ht, hl, hl', hjf] at h1 h2 ⊢
            cases hs : (unmarshal H O t n v).st with
            | ok =>
              rw [hs] at h2
              dsimp only at h2 ⊢
              obtain ⟨i1, i2⟩ := ih m m' j vs ha' hj' h1 h2
              exact ⟨i1, by rw [i2]⟩
            | err => rw [hs] at h2; exact nomatch h2
            | panic => rw [hs] at h2; exact nomatch h2
        · cases hl' : lookupKey tag.json m with
          | none =>
            rw [hl, hl'] at hjf
            simp only [Option.orElse] at hjf
            simp only [uFields, hx, if_true, ht, hl, hl', hjf] at h1 h2 ⊢
            obtain ⟨i1, i2⟩ := ih m m' j vs ha' hj' h1 h2
            exact ⟨i1, by rw [i2]⟩
          | some n =>
            rw [hl, hl'] at hjf
            simp only [Option.orElse] at hjf
            simp only [uFields, hx, if_true, ht, hl, hl', hjf] at h1 h2 ⊢
            cases hs : (unmarshal H O t n v).st with
            | ok =>
              rw [hs] at h1
              dsimp only at h1 ⊢
              simp only [uFields, hx, if_true, ht, hl]
              obtain ⟨i1, i2⟩ := ih m m' j vs ha' hj' h1 h2
              exact ⟨i1, by rw [i2]⟩
            | err => rw [hs] at h1; exact nomatch h1
            | panic => rw [hs] at h1; exact nomatch h1
    · have hx : f.exported = false := by simpa using hx
      simp only [uFields, hx, Bool.false_eq_true, if_false] at h1 h2 ⊢
      obtain ⟨i1, i2⟩ := ih m m' j vs ha' hj' h1 h2
      exact ⟨i1, by rw [i2]⟩
  | _ => trivial

theorem lookup_append (k : Str) (m m' : List (Str × Node X)) : lookupKey k (m ++ m') = (lookupKey k m).orElse fun _ => lookupKey k m' := by
  induction m with
  | nil => rfl
  | cons e m ih =>
    show (if k = e.1 then some e.2 else lookupKey k (m ++ m')) = (if k = e.1 then some e.2 else lookupKey k m).orElse _
    by_cases h : k = e.1
    · rw [if_pos h, if_pos h]; rfl
    · rw [if_neg h, if_neg h, ih]

/-! ### theorems -/

/-- **C181.** Unmarshalling the same document again changes nothing, even if it fails. -/
theorem C181_again (H : Handler X) (O : Order) (t : Ty) (n : Node X) (old : Val X t) :
    unmarshal H O t n (unmarshal H O t n old).val = unmarshal H O t n old := by
  obtain ⟨g, st, c, he, hg⟩ := steady H O t n
  dsimp only at he
  simp only [he old, he (g old), hg]

/-- **C181.** What is not a struct is written as a whole: nothing of what the variable was is left. -/
theorem C181_fresh (H : Handler X) (O : Order) (t : Ty) (n : Node X) (hc : Covers t n) (old old' : Val X t) (h : (unmarshal H O t n old).st = .ok) :
    (unmarshal H O t n old).val = (unmarshal H O t n old').val := coverT H O t n hc old old' h

/-- **C181.** Two documents that name no field both, one after the other, are one document that has the fields of both. -/
theorem C181_joined (H : Handler X) (O : Order) (fs : Fields) (m m' j : List (Str × Node X)) (old : FVals X fs) (ha : Apart fs m m') (hj : Joins fs m m' j)
    (h1 : (unmarshal H O (.struct fs) (.map m) old).st = .ok) (h2 : (unmarshal H O (.struct fs) (.map m') old).st = .ok) :
    (unmarshal H O (.struct fs) (.map m') (unmarshal H O (.struct fs) (.map m) old).val).val = (unmarshal H O (.struct fs) (.map j) old).val ∧
      (H.unhandled = none → (unmarshal H O (.struct fs) (.map j) old).st = .ok) := by
  rw [un_struct_map] at h1 h2
  simp only [un_struct_map, uStruct_val]
  obtain ⟨i1, i2⟩ := fields_join H O fs m m' j old ha hj (uStruct_ok H O fs m _ h1) (uStruct_ok H O fs m' _ h2)
  refine ⟨i2, fun hh => ?_⟩
  unfold uStruct
  rw [i1]
  unfold report
  rw [hh]

/-- **C181.** Their order does not matter. -/
theorem C181_order (H : Handler X) (O : Order) (fs : Fields) (m m' : List (Str × Node X)) (old : FVals X fs) (ha : Apart fs m m')
    (h1 : (unmarshal H O (.struct fs) (.map m) old).st = .ok) (h2 : (unmarshal H O (.struct fs) (.map m') old).st = .ok) :
    (unmarshal H O (.struct fs) (.map m') (unmarshal H O (.struct fs) (.map m) old).val).val =
      (unmarshal H O (.struct fs) (.map m) (unmarshal H O (.struct fs) (.map m') old).val).val := by
  have hj : Joins fs m m' (m ++ m') := fun f _ tag _ _ => lookup_append tag.json m m'
  have hj' : Joins fs m' m (m ++ m') := by
    intro f hf tag hx ht
    rw [lookup_append]
    rcases ha f hf tag hx ht with h | h <;> rw [h]
    · cases lookupKey tag.json m' <;> rfl
    · cases lookupKey tag.json m <;> rfl
  have ha' : Apart fs m' m := fun f hf tag hx ht => (ha f hf tag hx ht).symm
  rw [(C181_joined H O fs m m' _ old ha hj h1 h2).1, (C181_joined H O fs m' m _ old ha' hj' h2 h1).1]

/-- `struct { A, B string }` -/
def two : Fields := .cons { name := lit "A" } .string (.cons { name := lit "B" } .string .nil)

/-- what `A` is -/
def a (v : FVals XT two) : Str := v.1

/-- **C181** (violated). Within a struct in a struct what a later document does not mention is kept; behind a pointer it is lost, because a fresh variable is made (enc/handler.go L60-73). -/
theorem C181_pointer_violated :
    (∀ H : Handler XT, ∃ v : FVals XT two, (unmarshal (X := XT) H sortedOrder (.struct (.cons { name := lit "S" } (.struct two) .nil)) (.map [(lit "S", .map [(lit "B", .str (lit "y"))])])
      (((lit "x", lit "", ()) : FVals XT two), ())).val = (v, ()) ∧ a v = lit "x") ∧
    ∀ H : Handler XT, ∃ v : FVals XT two, (unmarshal (X := XT) H sortedOrder (.struct (.cons { name := lit "S" } (.ptr (.struct two)) .nil)) (.map [(lit "S", .map [(lit "B", .str (lit "y"))])])
      (some ((lit "x", lit "", ()) : FVals XT two), ())).val = (some v, ()) ∧ a v = lit "" := by
  constructor
  · rintro ⟨_ | cb⟩ <;> exact ⟨(lit "x", lit "y", ()), by rfl, rfl⟩
  · rintro ⟨_ | cb⟩ <;> exact ⟨(lit "", lit "y", ()), by rfl, rfl⟩

/-! ### concrete cases -/

/-- `{"A":"x"}` and `{"B":"y"}` name no field both; the second is not all of the variable, `{"A":"x","B":"y"}` is. -/
example : Apart (X := XT) two [(lit "A", .str (lit "x"))] [(lit "B", .str (lit "y"))] := by
  intro f hf tag _ ht
  rcases List.mem_cons.1 hf with rfl | hf
  · right; cases ht; rfl
  · left; rw [List.mem_singleton.1 hf] at ht; cases ht; rfl
example : ¬ Covers (X := XT) (.struct two) (.map [(lit "B", .str (lit "y"))]) := by
  rintro ⟨⟨-, tag, n, ht, hl, -⟩, -⟩
  cases ht; exact nomatch hl
example : Covers (X := XT) (.struct two) (.map [(lit "A", .str (lit "x")), (lit "B", .str (lit "y"))]) :=
  ⟨⟨rfl, _, _, rfl, rfl, trivial⟩, ⟨rfl, _, _, rfl, rfl, trivial⟩, trivial⟩
example (H : Handler XT) (old : FVals XT two) : (uFields (X := XT) H sortedOrder two [(lit "A", .str (lit "x")), (lit "B", .str (lit "y"))] old).val = (lit "x", lit "y", ()) := rfl

end Verif.Enc.Again

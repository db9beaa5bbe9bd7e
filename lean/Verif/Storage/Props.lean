import Verif.Storage.Spec
import Verif.Prom.QuoteLemmas
/-!
# Properties of the key-value store (C34, C35, C36, C68, C69)
-/
set_option autoImplicit false
namespace Verif.Storage
open Verif.Strconv Verif.Enc

/-! ### C34 -/

theorem lookup_filter {α : Type} (m : List (Str × α)) (k key : Str) :
    lookupKey k (m.filter (fun e => e.1 ≠ key)) = if k = key then none else lookupKey k m := by
  induction m with
  | nil => simp [lookupKey]
  | cons e m ih =>
    obtain ⟨k0, v0⟩ := e
    by_cases h : k0 = key
    · subst h
      simp only [ne_eq, not_true_eq_false, decide_false, Bool.false_eq_true, not_false_eq_true, List.filter_cons_of_neg]
      rw [ih]; simp only [lookupKey]
      by_cases hk : k = k0 <;> simp [hk]
    · rw [List.filter_cons_of_pos (by simpa using h)]
      simp only [lookupKey, ih]
      by_cases hk : k = k0
      · subst hk; simp [h]
      · simp [hk]

theorem sorted_apply {X : Ext} (w : World X) (op : Op X) (h : SortedKeys w.data) : SortedKeys (op.apply w).data := by
  cases op with
  | upsert k v => exact sorted_insertKey k v _ h
  | delete k => exact List.Pairwise.filter _ h
  | edit r rec => exact h

theorem sorted_run {X : Ext} (heap : Nat → List (Str × Node X)) (ops : List (Op X)) : SortedKeys (ops.foldl Op.apply (World.empty heap)).data := by
  have : ∀ w : World X, SortedKeys w.data → SortedKeys (ops.foldl Op.apply w).data := by
    induction ops with
    | nil => exact fun _ h => h
    | cons op ops ih => exact fun w h => ih _ (sorted_apply w op h)
  exact this _ (by simp [World.empty, SortedKeys])

/-- C34: after any history, `Get` returns the reference of the latest write to that very key, and nil if there is none or it was a
deletion. Other keys' operations and edits do not matter. -/
theorem C34_get {X : Ext} (heap : Nat → List (Str × Node X)) (ops : List (Op X)) (k : Str) :
    (ops.foldl Op.apply (World.empty heap)).get k = (latest k ops.reverse).getD none := by
  have key : ∀ (h : List (Op X)), lookupKey k (h.foldr (fun op w => op.apply w) (World.empty heap)).data = latest k h := by
    intro h
    induction h with
    | nil => rfl
    | cons op h ih =>
      simp only [List.foldr_cons]
      generalize List.foldr (fun op w => Op.apply w op) (World.empty heap) h = w at ih ⊢
      cases op with
      | upsert k' v =>
        simp only [Op.apply, World.upsert, lookup_insertKey, latest, ih]
        by_cases e : k = k' <;> simp [e, eq_comm (a := k') (b := k)]
      | delete k' =>
        simp only [Op.apply, World.delete, lookup_filter, latest, ih]
        by_cases e : k = k' <;> simp [e, eq_comm (a := k') (b := k)]
      | edit r rec => simpa [Op.apply, latest] using ih
  have := key ops.reverse
  rw [List.foldr_reverse] at this
  unfold World.get; rw [this]

/-! ### C35 -/

theorem callbacks_spec {X : Ext} {E : Type} (f : World X → Str → Ref → World X × Cb E) (l : List (Str × Ref)) : ∀ w,
    ∃ n, (callbacks f w l).2.2 = l.take n ∧ (callbacks f w l).1 = worldAt f w l n ∧
      ((n = l.length ∧ (∀ i, i < n → answer f w l i = some .nil) ∧ (callbacks f w l).2.1 = none) ∨
       (∃ m, n = m + 1 ∧ n ≤ l.length ∧ (∀ i, i < m → answer f w l i = some .nil) ∧
         ((answer f w l m = some .eod ∧ (callbacks f w l).2.1 = none) ∨ ∃ e, answer f w l m = some (.err e) ∧ (callbacks f w l).2.1 = some e))) := by
  induction l with
  | nil => intro w; exact ⟨0, rfl, rfl, .inl ⟨rfl, by intro i hi; omega, rfl⟩⟩
  | cons e l ih =>
    obtain ⟨k, v⟩ := e
    intro w
    have ans0 : answer f w ((k, v) :: l) 0 = some (f w k v).2 := by simp [answer, worldAt]
    have ansS : ∀ i, answer f w ((k, v) :: l) (i + 1) = answer f (f w k v).1 l i := by intro i; simp [answer, worldAt]
    simp only [callbacks]
    split
    · rename_i w' hf
      obtain ⟨n, h1, h2, h3⟩ := ih w'
      refine ⟨n + 1, by simp [h1], by simp [h2, worldAt, hf], ?_⟩
      rcases h3 with ⟨hn, ha, hr⟩ | ⟨m, hm, hn, ha, hr⟩
      · refine .inl ⟨by simp [hn], ?_, hr⟩
        intro i hi
        cases i with
        | zero => rw [ans0, hf]
        | succ i => rw [ansS, hf]; exact ha i (by omega)
      · refine .inr ⟨m + 1, by omega, by simp; omega, ?_, ?_⟩
        · intro i hi
          cases i with
          | zero => rw [ans0, hf]
          | succ i => rw [ansS, hf]; exact ha i (by omega)
        · rw [ansS, hf]; exact hr
    · rename_i w' hf
      refine ⟨1, by simp, by simp [worldAt, hf], .inr ⟨0, rfl, by simp, by intro i hi; omega, .inl ⟨by rw [ans0, hf], rfl⟩⟩⟩
    · rename_i w' e hf
      refine ⟨1, by simp, by simp [worldAt, hf], .inr ⟨0, rfl, by simp, by intro i hi; omega, .inr ⟨e, by rw [ans0, hf], rfl⟩⟩⟩

/-- Whether a record matches all filters. -/
def matchesAll {X : Ext} (isPrint : Char → Bool) (o : Orders) (fs : List (Filter X)) (rec : List (Str × Node X)) : Prop :=
  ∀ f ∈ fs, f.check isPrint o rec = .ok true

instance {X : Ext} (isPrint : Char → Bool) (o : Orders) (fs : List (Filter X)) (rec : List (Str × Node X)) : Decidable (matchesAll isPrint o fs rec) := by
  have : DecidableEq (Except Fail Bool) := inferInstance
  unfold matchesAll; infer_instance

theorem checkAll_true {X : Ext} (isPrint : Char → Bool) (o : Orders) (fs : List (Filter X)) (rec : List (Str × Node X)) :
    checkAll isPrint o rec fs = .ok true ↔ matchesAll isPrint o fs rec := by
  induction fs with
  | nil => simp [checkAll, matchesAll]
  | cons f fs ih =>
    simp only [matchesAll, List.mem_cons, forall_eq_or_imp] at ih ⊢
    simp only [checkAll]
    split
    · rename_i h; simp [h]
    · rename_i h; simp [h]
    · rename_i h; simp [h, ih]

theorem checkAll_error {X : Ext} (isPrint : Char → Bool) (o : Orders) (fs : List (Filter X)) (rec : List (Str × Node X)) (e : Fail) :
    checkAll isPrint o rec fs = .error e ↔
      ∃ (pre post : List (Filter X)) (f : Filter X), fs = pre ++ f :: post ∧ matchesAll isPrint o pre rec ∧ f.check isPrint o rec = .error e := by
  induction fs with
  | nil => simp [checkAll]
  | cons f fs ih =>
    simp only [checkAll]
    constructor
    · intro h
      split at h
      · rename_i e' he; injection h with h; subst h; exact ⟨[], fs, f, rfl, by simp [matchesAll], he⟩
      · cases h
      · rename_i ht
        obtain ⟨pre, post, f', h1, h2, h3⟩ := ih.1 h
        exact ⟨f :: pre, post, f', by simp [h1], by simpa [matchesAll, ht] using h2, h3⟩
    · rintro ⟨pre, post, f', h1, h2, h3⟩
      cases pre with
      | nil => simp at h1; obtain ⟨rfl, rfl⟩ := h1; rw [h3]
      | cons p pre =>
        simp at h1
        obtain ⟨rfl, h1⟩ := h1
        have hp : f.check isPrint o rec = .ok true := h2 f (by simp)
        rw [hp]
        exact ih.2 ⟨pre, post, f', h1, fun g hg => h2 g (by simp [hg]), h3⟩

theorem collect_ok {X : Ext} (isPrint : Char → Bool) (o : Orders) (w : World X) (fs : List (Filter X)) (l : List (Str × Ref))
    (h : ∀ e ∈ l, ∀ x, checkAll isPrint o (w.record e.2) fs ≠ .error x) :
    collect isPrint o w fs l = .ok (l.filter (fun e => matchesAll isPrint o fs (w.record e.2))) := by
  induction l with
  | nil => rfl
  | cons e l ih =>
    obtain ⟨k, v⟩ := e
    simp only [collect]
    rw [ih (fun e he => h e (by simp [he]))]
    cases hc : checkAll isPrint o (w.record v) fs with
    | error x => exact absurd hc (h (k, v) (by simp) x)
    | ok b =>
      cases b with
      | true => rw [List.filter_cons_of_pos (by simpa using (checkAll_true _ _ _ _).1 hc)]; rfl
      | false =>
        rw [List.filter_cons_of_neg]
        · rfl
        · intro hm
          have := (checkAll_true isPrint o fs (w.record v)).2 (by simpa using hm)
          rw [hc] at this; cases this

theorem collect_error {X : Ext} (isPrint : Char → Bool) (o : Orders) (w : World X) (fs : List (Filter X)) (l : List (Str × Ref)) :
    (∃ x, collect isPrint o w fs l = .error x ∧ ∃ e ∈ l, checkAll isPrint o (w.record e.2) fs = .error x) ∨
    (∀ e ∈ l, ∀ x, checkAll isPrint o (w.record e.2) fs ≠ .error x) := by
  induction l with
  | nil => right; simp
  | cons e l ih =>
    obtain ⟨k, v⟩ := e
    simp only [collect]
    cases hc : checkAll isPrint o (w.record v) fs with
    | error x => left; exact ⟨x, rfl, (k, v), by simp, hc⟩
    | ok b =>
      rcases ih with ⟨x, h1, e, he, h2⟩ | h
      · left; exact ⟨x, by simp [h1], e, by simp [he], h2⟩
      · right
        intro e he x
        rcases List.mem_cons.1 he with rfl | he
        · simp [hc]
        · exact h e he x

/-- C35: if no filter fails, `Range` takes a snapshot `L` of the matching records at the time of the call, in some order, and calls the
callback on them in that order, whatever the callback does to the store; it goes through all of them unless the callback answers EOD
(nil is returned) or an error (that error is returned), which ends the scan at that record. -/
theorem C35_range {X : Ext} {E : Type} (isPrint : Char → Bool) (o : Orders) (iter : List (Str × Ref) → List (Str × Ref)) (w : World X)
    (f : World X → Str → Ref → World X × Cb E) (fs : List (Filter X)) (hiter : (iter w.data).Perm w.data)
    (hok : ∀ e ∈ w.data, ∀ x, checkAll isPrint o (w.record e.2) fs ≠ .error x) :
    ∃ L : List (Str × Ref), L.Perm (w.data.filter (fun e => matchesAll isPrint o fs (w.record e.2))) ∧
    ∃ n, (w.range isPrint o iter f fs).2.2 = L.take n ∧ (w.range isPrint o iter f fs).1 = worldAt f w L n ∧
      ((n = L.length ∧ (∀ i, i < n → answer f w L i = some .nil) ∧ (w.range isPrint o iter f fs).2.1 = none) ∨
       (∃ m, n = m + 1 ∧ n ≤ L.length ∧ (∀ i, i < m → answer f w L i = some .nil) ∧
         ((answer f w L m = some .eod ∧ (w.range isPrint o iter f fs).2.1 = none) ∨
          ∃ e, answer f w L m = some (.err e) ∧ (w.range isPrint o iter f fs).2.1 = some (.cb e)))) := by
  refine ⟨(iter w.data).filter (fun e => matchesAll isPrint o fs (w.record e.2)), hiter.filter _, ?_⟩
  obtain ⟨n, h1, h2, h3⟩ := callbacks_spec f ((iter w.data).filter (fun e => matchesAll isPrint o fs (w.record e.2))) w
  have hc := collect_ok isPrint o w fs (iter w.data) (fun e he => hok e (hiter.mem_iff.1 he))
  refine ⟨n, ?_⟩
  unfold World.range
  rw [hc]
  refine ⟨h1, h2, ?_⟩
  rcases h3 with ⟨a, b, c⟩ | ⟨m, a, b, c, d⟩
  · exact .inl ⟨a, b, by simp [c]⟩
  · refine .inr ⟨m, a, b, c, ?_⟩
    rcases d with ⟨d1, d2⟩ | ⟨e, d1, d2⟩
    · exact .inl ⟨d1, by simp [d2]⟩
    · exact .inr ⟨e, d1, by simp [d2]⟩

/-- C35: no record is visited twice, and only stored records are visited. -/
theorem C35_each_once {X : Ext} {E : Type} (isPrint : Char → Bool) (o : Orders) (iter : List (Str × Ref) → List (Str × Ref)) (w : World X)
    (f : World X → Str → Ref → World X × Cb E) (fs : List (Filter X)) (hw : SortedKeys w.data) (hiter : (iter w.data).Perm w.data) :
    ((w.range isPrint o iter f fs).2.2.map Prod.fst).Nodup ∧ ∀ e ∈ (w.range isPrint o iter f fs).2.2, e ∈ w.data ∧ matchesAll isPrint o fs (w.record e.2) := by
  rcases collect_error isPrint o w fs (iter w.data) with ⟨x, h, _⟩ | hok
  · simp [World.range, h]
  · obtain ⟨L, hp, n, h1, _, _⟩ := C35_range isPrint o iter w f fs hiter (fun e he => hok e (hiter.mem_iff.2 he))
    rw [h1]
    constructor
    · have hnd : (w.data.map Prod.fst).Nodup := by
        unfold List.Nodup
        rw [List.pairwise_map]
        exact hw.imp (fun h e => by rw [e, strLt_irrefl] at h; cases h)
      have h2 : ((w.data.filter (fun e => matchesAll isPrint o fs (w.record e.2))).map Prod.fst).Nodup :=
        hnd.sublist (List.filter_sublist.map _)
      have h3 : (L.map Prod.fst).Nodup := (hp.map Prod.fst).nodup_iff.2 h2
      exact h3.sublist ((List.take_sublist n L).map _)
    · intro e he
      have := hp.mem_iff.1 (List.mem_of_mem_take he)
      simpa using this

/-- C35: without filters every record matches. -/
theorem C35_no_filters {X : Ext} (isPrint : Char → Bool) (o : Orders) (w : World X) :
    w.data.filter (fun e => matchesAll isPrint o [] (w.record e.2)) = w.data := by
  simp [matchesAll]

/-! ### C36 -/

theorem quoteStr_inj (isPrint : Char → Bool) (a b : Str) (h : quoteStr isPrint a ++ lit "}" = quoteStr isPrint b ++ lit "}") : a = b := by
  have h1 := (Prom.quote_append_inj isPrint _ _ _ _ h).1
  have : ∀ (a b : Str), a.map Prom.Elt.rune = b.map Prom.Elt.rune → a = b := by
    intro a
    induction a with
    | nil => intro b hb; cases b <;> simp_all
    | cons x a ih => intro b hb; cases b with
      | nil => simp at hb
      | cons y b => simp at hb; rw [hb.1, ih b hb.2]
  exact this a b h1

/-- Two letters that tell the types apart in `GoString`. -/
def typeLetters {X : Ext} : Node X → Char × Char
  | .nil => ('N', 'i') | .bool _ => ('B', 'o') | .str _ => ('S', 't') | .int _ => ('I', 'n') | .float _ => ('F', 'l') | .digits _ => ('D', 'i')
  | .list _ => ('L', 'i') | .map _ => ('M', 'a') | .pairs _ => ('P', 'a') | .time _ => ('T', 'i') | .dur _ => ('D', 'u')

theorem goString_letters {X : Ext} (isPrint : Char → Bool) (ord : List Str → List Str) (n : Node X) :
    ∃ r, n.goString isPrint ord = 'e' :: 'n' :: 'c' :: '.' :: (typeLetters n).1 :: (typeLetters n).2 :: r := by
  cases n
  case bool b => cases b <;> exact ⟨_, rfl⟩
  all_goals exact ⟨_, rfl⟩

theorem goString_inj {X : Ext} (isPrint : Char → Bool) (l r : List Str → List Str) (hF : ∀ f g, X.fStr f = X.fStr g → f = g)
    (v n : Node X) (hn : Scalar n) (h : v.goString isPrint l = n.goString isPrint r) : v = n := by
  have cancel : ∀ (p a b : Str), p ++ a ++ lit "}" = p ++ b ++ lit "}" → a = b := by
    intro p a b h; simpa using h
  have ht : typeLetters v = typeLetters n := by
    obtain ⟨r1, h1⟩ := goString_letters isPrint l v
    obtain ⟨r2, h2⟩ := goString_letters isPrint r n
    rw [h1, h2] at h
    simp only [List.cons.injEq, true_and] at h
    exact Prod.ext h.1 h.2.1
  cases n <;> first | (simp only [Scalar] at hn; done) | skip
  case nil => cases v <;> first | rfl | exact absurd ht (by simp only [typeLetters]; decide)
  case bool b =>
    cases v
    case bool b' => cases b <;> cases b' <;> first | rfl | exact absurd h (by simp only [Node.goString]; decide)
    all_goals exact absurd ht (by simp only [typeLetters]; decide)
  case str s =>
    cases v
    case str s' =>
      simp only [Node.goString] at h
      have h' := (List.append_cancel_left (by simpa only [List.append_assoc] using h))
      rw [quoteStr_inj isPrint s' s h']
    all_goals exact absurd ht (by simp only [typeLetters]; decide)
  case int i =>
    cases v
    case int i' => simp only [Node.goString] at h; rw [fmtInt_inj _ _ (cancel _ _ _ h)]
    all_goals exact absurd ht (by simp only [typeLetters]; decide)
  case float f =>
    cases v
    case float f' => simp only [Node.goString] at h; rw [hF _ _ (cancel _ _ _ h)]
    all_goals exact absurd ht (by simp only [typeLetters]; decide)
  case digits s =>
    cases v
    case digits s' =>
      simp only [Node.goString] at h
      have h' := (List.append_cancel_left (by simpa only [List.append_assoc] using h))
      rw [quoteStr_inj isPrint s' s h']
    all_goals exact absurd ht (by simp only [typeLetters]; decide)

theorem goString_scalar_order {X : Ext} (isPrint : Char → Bool) (l r : List Str → List Str) (n : Node X) (hn : Scalar n) :
    n.goString isPrint l = n.goString isPrint r := by
  cases n <;> simp_all [Scalar, Node.goString]
  rename_i b; cases b <;> rfl

/-- C36: with a scalar literal, `Equal` matches iff the field holds that very value, whatever the field holds and in whatever order maps
are rendered (assuming distinct floats print differently). A field that is missing counts as nil. -/
theorem C36_equal {X : Ext} (isPrint : Char → Bool) (o : Orders) (hF : ∀ f g, X.fStr f = X.fStr g → f = g) (field : Str) (n : Node X) (hn : Scalar n)
    (rec : List (Str × Node X)) :
    ∃ b, Filter.check isPrint o ⟨field, lit "EQ", some n⟩ rec = .ok b ∧ (b = true ↔ (lookupKey field rec).getD .nil = n) := by
  refine ⟨decide (((lookupKey field rec).getD .nil).goString isPrint o.left = n.goString isPrint o.right), by simp only [Filter.check, if_true], ?_⟩
  simp only [decide_eq_true_eq]
  constructor
  · exact goString_inj isPrint o.left o.right hF _ n hn
  · intro h; rw [h]; exact goString_scalar_order isPrint _ _ n hn

/-- C36: `NotEqual` is its negation. -/
theorem C36_not_equal {X : Ext} (isPrint : Char → Bool) (o : Orders) (hF : ∀ f g, X.fStr f = X.fStr g → f = g) (field : Str) (n : Node X) (hn : Scalar n)
    (rec : List (Str × Node X)) :
    ∃ b, Filter.check isPrint o ⟨field, lit "NEQ", some n⟩ rec = .ok b ∧ (b = true ↔ (lookupKey field rec).getD .nil ≠ n) := by
  refine ⟨decide (((lookupKey field rec).getD .nil).goString isPrint o.left ≠ n.goString isPrint o.right), ?_, ?_⟩
  · have : lit "NEQ" ≠ lit "EQ" := by decide
    simp only [Filter.check, this, if_true, if_false]
  simp only [decide_eq_true_eq]
  constructor
  · intro h e; apply h; rw [e]; exact goString_scalar_order isPrint _ _ n hn
  · intro h e; exact h (goString_inj isPrint o.left o.right hF _ n hn e)

/-- C36: `Range` fails without calling back iff some stored record passes all the filters before one that cannot be evaluated: an
unsupported operator, or a nil literal (a panic). -/
theorem C36_unsupported {X : Ext} {E : Type} (isPrint : Char → Bool) (o : Orders) (iter : List (Str × Ref) → List (Str × Ref)) (w : World X)
    (f : World X → Str → Ref → World X × Cb E) (fs : List (Filter X)) (hiter : (iter w.data).Perm w.data) :
    (∃ x, (w.range isPrint o iter f fs).2.1 = some (.check x)) ↔
      ∃ e ∈ w.data, ∃ (pre post : List (Filter X)) (g : Filter X), fs = pre ++ g :: post ∧ matchesAll isPrint o pre (w.record e.2) ∧
        ((g.cmp ≠ lit "EQ" ∧ g.cmp ≠ lit "NEQ") ∨ g.val = none) := by
  have hx : ∀ (g : Filter X) rec, (∃ x, g.check isPrint o rec = .error x) ↔ ((g.cmp ≠ lit "EQ" ∧ g.cmp ≠ lit "NEQ") ∨ g.val = none) := by
    intro g rec
    simp only [Filter.check]
    by_cases h1 : g.cmp = lit "EQ"
    · cases hv : g.val <;> simp [h1]
    · by_cases h2 : g.cmp = lit "NEQ"
      · have hne : lit "NEQ" ≠ lit "EQ" := by decide
        cases hv : g.val <;> simp [h2, hne]
      · simp [h1, h2]
  have hL : (∃ x, (w.range isPrint o iter f fs).2.1 = some (.check x)) ↔ ∃ e ∈ w.data, ∃ x, checkAll isPrint o (w.record e.2) fs = .error x := by
    rcases collect_error isPrint o w fs (iter w.data) with ⟨x, h1, e, he, h2⟩ | hok
    · constructor
      · intro _; exact ⟨e, hiter.mem_iff.1 he, x, h2⟩
      · intro _; exact ⟨x, by simp [World.range, h1]⟩
    · constructor
      · rintro ⟨x, h⟩
        simp only [World.range, collect_ok isPrint o w fs _ hok] at h
        cases hr : (callbacks f w ((iter w.data).filter (fun e => matchesAll isPrint o fs (w.record e.2)))).2.1 <;> simp [hr] at h
      · rintro ⟨e, he, x, h⟩; exact absurd h (hok e (hiter.mem_iff.2 he) x)
  rw [hL]
  constructor
  · rintro ⟨e, he, x, h⟩
    obtain ⟨pre, post, g, h1, h2, h3⟩ := (checkAll_error _ _ _ _ _).1 h
    exact ⟨e, he, pre, post, g, h1, h2, (hx g _).1 ⟨x, h3⟩⟩
  · rintro ⟨e, he, pre, post, g, h1, h2, h3⟩
    obtain ⟨x, h3⟩ := (hx g (w.record e.2)).2 h3
    exact ⟨e, he, x, (checkAll_error _ _ _ _ _).2 ⟨pre, post, g, h1, h2, h3⟩⟩

/-! ### C68 -/

/-- C68 (violated): a record holding a map does not reliably match a filter for that very map: when the two renderings iterate in
different orders they differ. Here the map is `{"a":1,"b":2}`. -/
theorem C68_compound_self_violated {X : Ext} (isPrint : Char → Bool) (ha : isPrint 'a' = true) (hb : isPrint 'b' = true) :
    ∃ (n : Node X) (o : Orders), (∀ l, (o.left l).Perm l) ∧ (∀ l, (o.right l).Perm l) ∧
      Filter.check isPrint o ⟨lit "f", lit "EQ", some n⟩ [(lit "f", n)] = .ok false := by
  refine ⟨.map [(lit "a", .int 1), (lit "b", .int 2)], ⟨id, List.reverse⟩, fun l => List.Perm.refl l, fun l => List.reverse_perm l, ?_⟩
  have f1 : fmtInt 1 = ['1'] := by simp [fmtInt, fmtNat, digit]
  have f2 : fmtInt 2 = ['2'] := by simp [fmtInt, fmtNat, digit]
  simp [Filter.check, lookupKey, Node.goString, Node.entryStrings, Node.string, joinComma, lit, quoteStr, Prom.quote, Prom.escape, ha, hb, f1, f2]

/-- C68 (violated): lists that differ match each other: elements are compared by `String()`, which does not tell types apart. Here the
list of the integer 1 and the list of the digits "1". -/
theorem C68_compound_other_violated {X : Ext} (isPrint : Char → Bool) (o : Orders) :
    ∃ (n n' : Node X), n ≠ n' ∧ Filter.check isPrint o ⟨lit "f", lit "EQ", some n⟩ [(lit "f", n')] = .ok true := by
  refine ⟨.list [.int 1], .list [.digits ['1']], by simp, ?_⟩
  have f1 : fmtInt 1 = ['1'] := by simp [fmtInt, fmtNat, digit]
  simp [Filter.check, lookupKey, Node.goString, Node.strings, Node.string, joinComma, lit, f1]

/-- C68, what holds: with the same iteration order on both sides (in particular for values without maps of several entries) a value
matches itself. -/
theorem C68_compound_self_partial {X : Ext} (isPrint : Char → Bool) (ord : List Str → List Str) (field : Str) (n : Node X) (rec : List (Str × Node X))
    (h : lookupKey field rec = some n) : Filter.check isPrint ⟨ord, ord⟩ ⟨field, lit "EQ", some n⟩ rec = .ok true := by
  simp [Filter.check, h]

/-! ### C69 -/

/-- C69 (violated): a record edited by its owner after `Upsert` changes in the store. -/
theorem C69_isolation_violated {X : Ext} : ∃ (w : World X) (k : Str) (r : Nat) (rec : List (Str × Node X)),
    let w1 := w.upsert k (some r)
    let w2 := (Op.edit r rec).apply w1
    w2.record (w2.get k) ≠ w1.record (w1.get k) := by
  refine ⟨World.empty (fun _ => []), lit "k", 0, [(lit "f", .nil)], ?_⟩
  simp [Op.apply, World.upsert, World.empty, World.get, World.record, insertKey, lookupKey]

/-- C69, what holds: edits of records that are not stored do not show. -/
theorem C69_isolation_partial {X : Ext} (w : World X) (r : Nat) (rec : List (Str × Node X)) (k : Str) (h : w.get k ≠ some r) :
    let w2 := (Op.edit r rec).apply w
    w2.record (w2.get k) = w.record (w.get k) := by
  have hg : ((Op.edit r rec).apply w).get k = w.get k := rfl
  simp only [hg]
  cases hr : w.get k with
  | none => rfl
  | some r' =>
    have : r' ≠ r := by intro e; rw [hr, e] at h; exact h rfl
    simp [World.record, Op.apply, this]

/-- Whether an operation says something about a key, or edits the record that a reference points to. -/
def Touches {X : Ext} (k : Str) (v : Ref) : Op X → Prop
  | .upsert k' _ => k' = k
  | .delete k' => k' = k
  | .edit r _ => v = some r

/-- C69, what holds: whatever is done to other keys, and to records that are not the one of this key, the key keeps its record and the record its content. -/
theorem C69_history_partial {X : Ext} (ops : List (Op X)) (w : World X) (k : Str) (h : ∀ op ∈ ops, ¬ Touches k (w.get k) op) :
    (ops.foldl Op.apply w).get k = w.get k ∧ (ops.foldl Op.apply w).record (w.get k) = w.record (w.get k) := by
  induction ops generalizing w with
  | nil => exact ⟨rfl, rfl⟩
  | cons op ops ih =>
    have h1 := h op (by simp)
    have hget : (op.apply w).get k = w.get k := by
      cases op with
      | upsert k' v => simp only [Touches] at h1; simp [Op.apply, World.upsert, World.get, lookup_insertKey, Ne.symm h1]
      | delete k' =>
        simp only [Touches] at h1
        have e := lookup_filter w.data k k'
        rw [if_neg (Ne.symm h1)] at e
        simp only [Op.apply, World.delete, World.get, e]
      | edit r rec => rfl
    have hrec : (op.apply w).record (w.get k) = w.record (w.get k) := by
      cases op with
      | upsert k' v => rfl
      | delete k' => rfl
      | edit r rec =>
        have h2 := C69_isolation_partial w r rec k h1
        exact h2
    have h3 := ih (op.apply w) (by intro o ho; rw [hget]; exact h o (by simp [ho]))
    rw [hget] at h3
    exact ⟨h3.1, h3.2.trans hrec⟩

/-! ### concrete cases -/

section
/-- A trivial instance of the opaque parts, for examples. -/
def X0 : Ext := ⟨Unit, Unit, fun _ => some (lit "0"), fun _ => some (), fun _ => lit "0", fun _ => (), fun _ => 0, fun _ => 0, id, fun _ => true, (),
  fun _ => [], fun _ => none, (), fun _ => [], fun _ => none, fun _ => [], fun _ => none⟩

/-- Records 1 and 2; record 2 has no name. -/
def heap0 : Nat → List (Str × Node X0)
  | 1 => [(lit "name", .str (lit "x"))]
  | _ => [(lit "age", .int 3)]

def w0 : World X0 := [Op.upsert (lit "b") (some 2), .upsert (lit "a") (some 1), .upsert (lit "c") (some 1), .delete (lit "c")].foldl Op.apply (World.empty heap0)

example : w0.get (lit "a") = some 1 ∧ w0.get (lit "c") = none ∧ w0.data = [(lit "a", some 1), (lit "b", some 2)] := by decide

/-- A callback that deletes everything it sees and continues. -/
def eraser : World X0 → Str → Ref → World X0 × Cb Nat := fun w k _ => (w.delete k, .nil)

/-- Deleting while ranging: both records are still visited. -/
example : (w0.range (fun _ => true) ⟨id, id⟩ List.reverse eraser []).2 = (none, [(lit "b", some 2), (lit "a", some 1)]) := by decide
/-- A missing field counts as nil; only record 2 has no name. -/
example : (w0.range (fun _ => true) ⟨id, id⟩ id eraser [⟨lit "name", lit "EQ", some .nil⟩]).2 = (none, [(lit "b", some 2)]) := by decide +kernel
/-- An unsupported operator behind a filter nothing passes is not noticed. -/
example : (w0.range (fun _ => true) ⟨id, id⟩ id eraser [⟨lit "name", lit "EQ", some (.bool true)⟩, ⟨lit "age", lit "G", some (.int 1)⟩]).2 = (none, []) := by decide +kernel
example : (w0.range (fun _ => true) ⟨id, id⟩ id eraser [⟨lit "age", lit "G", some (.int 1)⟩]).2 = (some (.check (.unsupported (lit "G"))), []) := by decide +kernel
end

end Verif.Storage

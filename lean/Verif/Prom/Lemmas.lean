import Verif.Prom.Spec
import Verif.Prom.QuoteLemmas
/-!
# Helper lemmas for metrics
-/
set_option autoImplicit false
namespace Verif.Prom

theorem stringifyFrom_inj (isPrint : Char → Bool) : ∀ (keys : List (List Char)) (vs vs' : List GoStr),
    vs.length = keys.length → vs'.length = keys.length → stringifyFrom isPrint keys vs = stringifyFrom isPrint keys vs' → vs = vs'
  | [], [], [], _, _, _ => rfl
  | k :: ks, v :: vs, v' :: vs', h1, h2, h => by
    simp only [stringifyFrom, List.cons_append, List.append_assoc, List.cons.injEq, true_and] at h
    have h := List.append_cancel_left h
    simp only [List.cons.injEq, true_and] at h
    obtain ⟨rfl, h3⟩ := quote_append_inj isPrint v v' _ _ h
    rw [stringifyFrom_inj isPrint ks vs vs' (by simpa using h1) (by simpa using h2) h3]

theorem stringify_ok (isPrint : Char → Bool) (keys : List (List Char)) (vs : List GoStr) (h : keys.length = vs.length) :
    ∃ s, stringify isPrint keys vs = .ok s ∧ (keys = [] ∧ s = [] ∨ keys ≠ [] ∧ stringifyFrom isPrint keys vs = ',' :: s ∧ s ≠ []) := by
  match keys, vs, h with
  | [], [], _ => exact ⟨[], rfl, .inl ⟨rfl, rfl⟩⟩
  | k :: ks, v :: vs, h =>
    refine ⟨k ++ ('=' :: quote isPrint v) ++ stringifyFrom isPrint ks vs, ?_, .inr ⟨by simp, by simp [stringifyFrom], by simp⟩⟩
    simp only [stringify, stringifyFrom]
    rw [if_neg (by omega)]
    rfl

theorem stringify_inj (isPrint : Char → Bool) (keys : List (List Char)) (vs vs' : List GoStr) (h : keys.length = vs.length)
    (h' : keys.length = vs'.length) (he : stringify isPrint keys vs = stringify isPrint keys vs') : vs = vs' := by
  obtain ⟨s, hs, hc⟩ := stringify_ok isPrint keys vs h
  obtain ⟨s', hs', hc'⟩ := stringify_ok isPrint keys vs' h'
  rw [hs, hs'] at he
  injection he with he; subst he
  rcases hc with ⟨hk, rfl⟩ | ⟨hk, hf, _⟩
  · subst hk
    simp at h h'
    have e1 : vs = [] := List.length_eq_zero_iff.1 h.symm
    have e2 : vs' = [] := List.length_eq_zero_iff.1 h'.symm
    rw [e1, e2]
  · rcases hc' with ⟨hk', _⟩ | ⟨_, hf', _⟩
    · exact absurd hk' hk
    · exact stringifyFrom_inj isPrint keys vs vs' h.symm h'.symm (hf.trans hf'.symm)

theorem bump_eq {F : Type} (fo : FloatOps F) (v : F) : ∀ (les : List F) (pre mid : List Nat), mid.length = les.length →
    bump fo v pre.length les (pre ++ mid) = .ok (pre ++ List.zipWith (fun le x => if fo.le v le then x + 1 else x) les mid)
  | [], pre, [], _ => by simp [bump]
  | le :: les, pre, x :: mid, h => by
    have ih := fun y => bump_eq fo v les (pre ++ [y]) mid (by simpa using h)
    simp only [List.length_append, List.length_singleton, List.append_assoc, List.singleton_append] at ih
    simp only [bump, List.zipWith_cons_cons]
    split
    · rw [Go.idx_nat _ _ (by simp)]
      simp only [bind, Except.bind]
      rw [Go.set_nat _ _ _ (by simp)]
      simp only [List.getElem_append_right (Nat.le_refl _), Nat.sub_self, List.getElem_cons_zero]
      rw [List.set_append_right _ _ (Nat.le_refl _)]
      simp only [Nat.sub_self, List.set_cons_zero]
      exact ih (x + 1)
    · exact ih x

/-- The state of a series after the observations `vs`. -/
def TS.after {F : Type} (fo : FloatOps F) (les : List F) (vs : List F) : TS F :=
  { buckets := les.map (fun le => vs.countP (fun v => fo.le v le)), sum := vs.foldl fo.add fo.zero, count := vs.length }

theorem observe_grown {F : Type} (fo : FloatOps F) (les : List F) (vs : List F) (v : F) (b : List Nat)
    (hb : grow les.length b = les.map (fun le => vs.countP (fun v => fo.le v le))) :
    TS.observe fo les { buckets := b, sum := vs.foldl fo.add fo.zero, count := vs.length } v = .ok (TS.after fo les (vs ++ [v])) := by
  have := bump_eq fo v les [] (les.map (fun le => vs.countP (fun v => fo.le v le))) (by simp)
  simp only [List.length_nil, List.nil_append] at this
  simp only [TS.observe, hb, this, bind, Except.bind, TS.after, List.foldl_append, List.foldl_cons, List.foldl_nil, List.length_append,
    List.length_singleton]
  congr 2
  rw [List.zipWith_map_right, List.zipWith_self]
  apply List.map_congr_left
  intro le _
  simp only [List.countP_append, List.countP_singleton]
  split <;> simp_all

theorem observe_after {F : Type} (fo : FloatOps F) (les : List F) (vs : List F) (v : F) :
    TS.observe fo les (TS.after fo les vs) v = .ok (TS.after fo les (vs ++ [v])) :=
  observe_grown fo les vs v _ (by simp [grow])

theorem observe_new {F : Type} (fo : FloatOps F) (les : List F) (v : F) :
    TS.observe fo les (TS.new fo) v = .ok (TS.after fo les [v]) := by
  have := observe_grown fo les [] v [] (by simp only [grow, List.nil_append, List.length_nil, Nat.sub_zero, List.countP_nil]; exact (List.map_const' ..).symm)
  exact this

theorem printBuckets_eq {F : Type} : ∀ (les : List F) (pre mid : List Nat), mid.length = les.length →
    printBuckets (pre ++ mid) pre.length les = .ok (List.zip les mid)
  | [], pre, [], _ => by simp [printBuckets]
  | le :: les, pre, x :: mid, h => by
    have ih := printBuckets_eq les (pre ++ [x]) mid (by simpa using h)
    simp only [List.length_append, List.length_singleton, List.append_assoc, List.singleton_append] at ih
    simp only [printBuckets]
    rw [Go.idx_nat _ _ (by simp)]
    simp only [bind, Except.bind, ih, List.getElem_append_right (Nat.le_refl _), Nat.sub_self, List.getElem_cons_zero, List.zip_cons_cons]

theorem print_ok {F : Type} (les : List F) (t : TS F) (h : t.buckets.length = les.length) :
    t.print les = .ok { buckets := les.zip t.buckets, inf := t.count, sum := t.sum, count := t.count } := by
  have := printBuckets_eq les [] t.buckets h
  simp only [List.length_nil, List.nil_append] at this
  simp only [TS.print, this, bind, Except.bind]

theorem under_append {F : Type} (labels : List GoStr) (obs : List (List GoStr × F)) (o : List GoStr × F) :
    under labels (obs ++ [o]) = if o.1 = labels then under labels obs ++ [o.2] else under labels obs := by
  simp only [under, List.filter_append, List.map_append]
  split <;> simp_all

theorem runAll_append {A S : Type} (step : S → A → Go S) (s : S) (l : List A) (a : A) :
    runAll step s (l ++ [a]) = (runAll step s l).bind (fun s => step s a) := by
  induction l generalizing s with
  | nil => simp only [List.nil_append, runAll, bind, Except.bind]; cases step s a <;> rfl
  | cons b l ih =>
    simp only [List.cons_append, runAll, bind, Except.bind]
    cases step s b with
    | error e => rfl
    | ok s => exact ih s

end Verif.Prom

import Verif.Prom.Lemmas
/-!
# Properties of metrics (C26-C30, C66)
-/
set_option autoImplicit false
namespace Verif.Prom

/-! ### C26 -/

/-- ASCII printability. -/
def asciiPrint (c : Char) : Bool := 32 ≤ c.toNat && c.toNat < 127

/-- Integers as floats. -/
def natOps : FloatOps Nat := { zero := 0, add := (· + ·), le := fun a b => a ≤ b }

/-- C26: for fixed label names, different value tuples of the right length have different keys. -/
theorem C26_injective (isPrint : Char → Bool) (names : List (List Char)) (vs vs' : List GoStr) (h : names.length = vs.length)
    (h' : names.length = vs'.length) : stringify isPrint names vs = stringify isPrint names vs' ↔ vs = vs' :=
  ⟨stringify_inj isPrint names vs vs' h h', fun e => by rw [e]⟩

/-- A value with a quote and a comma does not look like two values. -/
example : stringify asciiPrint ["a".toList, "b".toList] [['x', '"', ',', 'b', '=', '"'].map .rune, []] = .ok "a=\"x\\\",b=\\\"\",b=\"\"".toList ∧
    stringify asciiPrint ["a".toList, "b".toList] [['x'].map .rune, [',', 'b', '=', '"'].map .rune] = .ok "a=\"x\",b=\",b=\\\"\"".toList := by decide

/-- C26: a wrong number of values panics, the right number never does. -/
theorem C26_arity (isPrint : Char → Bool) (names : List (List Char)) (vs : List GoStr) :
    (stringify isPrint names vs = .error .explicit ↔ names.length ≠ vs.length) ∧
    ((∃ s, stringify isPrint names vs = .ok s) ↔ names.length = vs.length) := by
  by_cases h : names.length = vs.length
  · obtain ⟨s, hs, _⟩ := stringify_ok isPrint names vs h
    simp [hs, h]
  · simp [stringify, h]

example : stringify asciiPrint ["a".toList] [] = .error .explicit ∧ stringify asciiPrint [] [[.rune 'x']] = .error .explicit :=
  ⟨(C26_arity _ _ _).1.2 (by decide), (C26_arity _ _ _).1.2 (by decide)⟩

/-- C26: the key is empty (and printed without braces) iff there are no labels. -/
theorem C26_empty_key (isPrint : Char → Bool) (names : List (List Char)) (vs : List GoStr) :
    stringify isPrint names vs = .ok [] ↔ names = [] ∧ vs = [] := by
  constructor
  · intro h
    by_cases hl : names.length = vs.length
    · obtain ⟨s, hs, hc⟩ := stringify_ok isPrint names vs hl
      rw [hs] at h; injection h with h; subst h
      rcases hc with ⟨hk, _⟩ | ⟨_, _, hne⟩
      · subst hk; exact ⟨rfl, List.length_eq_zero_iff.1 (by simpa using hl.symm)⟩
      · exact absurd rfl hne
    · simp [stringify, hl] at h
  · rintro ⟨rfl, rfl⟩; rfl

example : stringify asciiPrint [] [] = .ok [] ∧ stringify asciiPrint [[]] [[]] = .ok "=\"\"".toList := by decide

/-! ### C27 -/

/-- The invariant of a histogram after a list of observations. -/
theorem hist_inv {F : Type} (fo : FloatOps F) (isPrint : Char → Bool) (names : List (List Char)) (les : List F)
    (obs : List (List GoStr × F)) (ha : ∀ o ∈ obs, o.1.length = names.length) :
    ∃ m, runAll (fun m (o : List GoStr × F) => histObserve fo isPrint names les m o.2 o.1) (fun _ => none) obs = .ok m ∧
      ∀ labels k, stringify isPrint names labels = .ok k →
        m k = if under labels obs = [] then none else some (TS.after fo les (under labels obs)) := by
  generalize hn : obs.length = n
  induction n generalizing obs with
  | zero =>
    have : obs = [] := List.length_eq_zero_iff.1 hn
    subst this
    exact ⟨_, rfl, by intros; simp [under]⟩
  | succ n ih =>
    obtain ⟨init, o, rfl⟩ : ∃ init o, obs = init ++ [o] := by
      rcases List.eq_nil_or_concat obs with rfl | ⟨i, o, rfl⟩
      · simp at hn
      · exact ⟨i, o, by simp⟩
    obtain ⟨m, hm, hk⟩ := ih init (fun x hx => ha x (by simp [hx])) (by simpa using hn)
    obtain ⟨k, hs, _⟩ := stringify_ok isPrint names o.1 (ha o (by simp)).symm
    have hobs : ∃ t, TS.observe fo les ((m k).getD (TS.new fo)) o.2 = .ok t ∧ t = TS.after fo les (under o.1 init ++ [o.2]) := by
      rw [hk o.1 k hs]
      by_cases hu : under o.1 init = []
      · simp only [hu, if_true, Option.getD_none, List.nil_append]; exact ⟨_, observe_new fo les o.2, rfl⟩
      · simp only [hu, if_false, Option.getD_some]; exact ⟨_, observe_after fo les _ o.2, rfl⟩
    obtain ⟨t, ht, rfl⟩ := hobs
    refine ⟨m.set k (some (TS.after fo les (under o.1 init ++ [o.2]))), ?_, ?_⟩
    · rw [runAll_append, hm]
      simp only [Except.bind, histObserve, hs, bind, ht]
    · intro labels k' hk'
      rw [under_append]
      by_cases hl : o.1 = labels
      · subst hl
        rw [hs] at hk'; injection hk' with e; subst e
        simp [LMap.set]
      · have hne : k' ≠ k := by
          rintro rfl
          have hlen : names.length = labels.length := by
            have := (C26_arity isPrint names labels).2.1 ⟨_, hk'⟩
            exact this
          exact hl ((C26_injective isPrint names o.1 labels (ha o (by simp)).symm hlen).1 (hs.trans hk'.symm))
        simp only [LMap.set, hne, if_false, hl]
        exact hk labels k' hk'

/-- C27: after any observations, `Observe` has not panicked, and printing the series of a label tuple reports for each bound the number of
observations under that tuple that are at most the bound, `+Inf` and `_count` their number, and `_sum` their sum; tuples without
observations have no series. Observations under other tuples do not appear anywhere. -/
theorem C27_histogram {F : Type} (fo : FloatOps F) (isPrint : Char → Bool) (names : List (List Char)) (les : List F)
    (obs : List (List GoStr × F)) (ha : ∀ o ∈ obs, o.1.length = names.length) :
    ∃ m, runAll (fun m (o : List GoStr × F) => histObserve fo isPrint names les m o.2 o.1) (fun _ => none) obs = .ok m ∧
      ∀ labels k, stringify isPrint names labels = .ok k →
        (under labels obs = [] → m k = none) ∧
        (under labels obs ≠ [] → ∃ t, m k = some t ∧ t.print les = .ok
          { buckets := les.map (fun le => (le, (under labels obs).countP (fun v => fo.le v le)))
            inf := (under labels obs).length
            sum := (under labels obs).foldl fo.add fo.zero
            count := (under labels obs).length }) := by
  obtain ⟨m, hm, hk⟩ := hist_inv fo isPrint names les obs ha
  refine ⟨m, hm, fun labels k hs => ⟨fun h => by rw [hk labels k hs, if_pos h], fun h => ?_⟩⟩
  refine ⟨_, by rw [hk labels k hs, if_neg h], ?_⟩
  rw [print_ok les _ (by simp [TS.after])]
  simp only [TS.after, List.zip_eq_zipWith, List.zipWith_map_right, List.zipWith_self]

/-- Three values under `a`, one under `b`; one of the three is equal to a bound. -/
example : ((do
    let m ← runAll (fun m (o : List GoStr × Nat) => histObserve natOps asciiPrint ["k".toList] [1, 5] m o.2 o.1) (fun _ => none)
      [([[.rune 'a']], 5), ([[.rune 'b']], 1), ([[.rune 'a']], 9), ([[.rune 'a']], 0)]
    match m "k=\"a\"".toList with
      | some t => do let p ← t.print [1, 5]; .ok (p.buckets, p.inf, p.sum, p.count)
      | none => .error .nilDeref : Go _).toOption) = some ([(1, 1), (5, 2)], 3, 14, 3) := by decide

/-- C27: with ascending bounds and a transitive `≤` (true of floating point numbers, NaN included) the reported counts are
non-decreasing and never above the total. -/
theorem C27_cumulative {F : Type} (le : F → F → Bool) (htrans : ∀ a b c, le a b = true → le b c = true → le a c = true)
    (les : List F) (hasc : les.Pairwise (fun a b => le a b = true)) (vs : List F) :
    (les.map (fun b => vs.countP (fun v => le v b))).Pairwise (· ≤ ·) ∧
    ∀ n ∈ les.map (fun b => vs.countP (fun v => le v b)), n ≤ vs.length := by
  constructor
  · rw [List.pairwise_map]
    refine hasc.imp ?_
    intro a b hab
    exact List.countP_mono_left (fun v _ hv => htrans v a b hv hab)
  · intro n hn
    obtain ⟨b, _, rfl⟩ := List.mem_map.1 hn
    exact List.countP_le_length

example : (([1, 5, 7] : List Nat).map (fun b => [3, 9, 0, 5].countP (fun v => decide (v ≤ b)))) = [1, 3, 3] := by decide

/-! ### C28 -/

/-- C28 (violated): with at least one bound, a scrape between the creation of a series and its first observation panics. -/
theorem C28_scrape_violated {F : Type} (fo : FloatOps F) (le : F) (les : List F) (k : List Char) :
    hrun fo (le :: les) (fun _ => none) [.store k, .print k] = .error .index := by
  simp [hrun, hstep, bind, Except.bind, LMap.set, TS.new, TS.print, printBuckets, Go.idx]

/-- Schedules that can occur (an `observe` follows a `store` of the same series) and in which every series has completed an observation
when it is printed. -/
def observedFirst {F : Type} (stored done : List (List Char)) : List (HAct F) → Prop
  | [] => True
  | .store k :: as => observedFirst (k :: stored) done as
  | .observe k _ :: as => k ∈ stored ∧ observedFirst stored (k :: done) as
  | .print k :: as => k ∈ done ∧ observedFirst stored done as

/-- C28 (partial): schedules in which every printed series has completed an observation never panic, whatever else is interleaved:
any number of other creations, observations and scrapes, in any order. -/
theorem C28_scrape_partial {F : Type} (fo : FloatOps F) (les : List F) (as : List (HAct F)) (h : observedFirst [] [] as) :
    ∃ m, hrun fo les (fun _ => none) as = .ok m := by
  have gen : ∀ (as : List (HAct F)) (stored done : List (List Char)) (m : LMap (TS F)),
      (∀ k t, m k = some t → t = TS.new fo ∨ ∃ vs, t = TS.after fo les vs) →
      (∀ k ∈ stored, ∃ t, m k = some t) →
      (∀ k ∈ done, ∃ vs, m k = some (TS.after fo les vs)) → observedFirst stored done as → ∃ m', hrun fo les m as = .ok m' := by
    intro as
    induction as with
    | nil => intro stored done m _ _ _ _; exact ⟨m, rfl⟩
    | cons a as ih =>
      intro stored done m h1 h2 h3 h
      cases a with
      | store k =>
        simp only [hrun, hstep]
        cases hm : m k with
        | some t =>
          refine ih (k :: stored) done m h1 ?_ h3 h
          intro k' hk'
          rcases List.mem_cons.1 hk' with rfl | hk'
          · exact ⟨t, hm⟩
          · exact h2 k' hk'
        | none =>
          simp only [bind, Except.bind]
          refine ih (k :: stored) done _ ?_ ?_ ?_ h
          · intro k' t ht
            simp only [LMap.set] at ht
            split at ht
            · injection ht with ht; exact .inl ht.symm
            · exact h1 k' t ht
          · intro k' hk'
            by_cases e : k' = k
            · subst e; exact ⟨TS.new fo, by simp [LMap.set]⟩
            · rcases List.mem_cons.1 hk' with rfl | hk'
              · exact absurd rfl e
              · simp only [LMap.set, e, if_false]; exact h2 k' hk'
          · intro k' hk'
            have := h3 k' hk'
            have e : k' ≠ k := by rintro rfl; rw [hm] at this; simp at this
            simp only [LMap.set, e, if_false]; exact this
      | observe k v =>
        obtain ⟨hk, h⟩ := h
        obtain ⟨t, ht⟩ := h2 k hk
        obtain ⟨vs, hvs⟩ : ∃ vs, TS.observe fo les t v = .ok (TS.after fo les vs) := by
          rcases h1 k t ht with rfl | ⟨vs, rfl⟩
          · exact ⟨_, observe_new fo les v⟩
          · exact ⟨_, observe_after fo les vs v⟩
        simp only [hrun, hstep, ht, hvs, bind, Except.bind]
        refine ih stored (k :: done) _ ?_ ?_ ?_ h
        · intro k' t ht
          simp only [LMap.set] at ht
          split at ht
          · injection ht with ht; exact .inr ⟨vs, ht.symm⟩
          · exact h1 k' t ht
        · intro k' hk'
          by_cases e : k' = k
          · subst e; exact ⟨TS.after fo les vs, by simp only [LMap.set, if_true]⟩
          · simp only [LMap.set, e, if_false]; exact h2 k' hk'
        · intro k' hk'
          by_cases e : k' = k
          · subst e; exact ⟨vs, by simp only [LMap.set, if_true]⟩
          · rcases List.mem_cons.1 hk' with rfl | hk'
            · exact absurd rfl e
            · simp only [LMap.set, e, if_false]; exact h3 k' hk'
      | print k =>
        obtain ⟨hk, h⟩ := h
        obtain ⟨vs, hvs⟩ := h3 k hk
        simp only [hrun, hstep, hvs, bind, Except.bind]
        rw [print_ok les _ (by simp [TS.after])]
        exact ih stored done m h1 h2 h3 h
  exact gen as [] [] _ (by simp) (by simp) (by simp) h

/-- Two writers and a scrape of each series, the second scrape before the second value. -/
example : ∃ m, hrun natOps [1, 5] (fun _ => none) [.store ['x'], .store ['y'], .observe ['x'] 3, .print ['x'], .observe ['y'] 1, .print ['y'], .observe ['x'] 7, .print ['x']] = .ok m :=
  C28_scrape_partial natOps [1, 5] _ (by simp [observedFirst])

/-- C28 (partial): without bounds a scrape never panics. -/
theorem C28_no_bounds_partial {F : Type} (t : TS F) : ∃ p, t.print [] = .ok p := ⟨_, rfl⟩

/-! ### C29 -/

/-- C29: a counter reports per label tuple the sum of the values observed under it, and nothing for tuples never observed. -/
theorem C29_counter {F : Type} (fo : FloatOps F) (isPrint : Char → Bool) (names : List (List Char))
    (obs : List (List GoStr × F)) (ha : ∀ o ∈ obs, o.1.length = names.length) :
    ∃ m, runAll (fun m (o : List GoStr × F) => counterObserve fo isPrint names m o.2 o.1) (fun _ => none) obs = .ok m ∧
      ∀ labels k, stringify isPrint names labels = .ok k →
        m k = if under labels obs = [] then none else some ((under labels obs).foldl fo.add fo.zero) := by
  generalize hn : obs.length = n
  induction n generalizing obs with
  | zero =>
    have : obs = [] := List.length_eq_zero_iff.1 hn
    subst this
    exact ⟨_, rfl, by intros; simp [under]⟩
  | succ n ih =>
    obtain ⟨init, o, rfl⟩ : ∃ init o, obs = init ++ [o] := by
      rcases List.eq_nil_or_concat obs with rfl | ⟨i, o, rfl⟩
      · simp at hn
      · exact ⟨i, o, by simp⟩
    obtain ⟨m, hm, hk⟩ := ih init (fun x hx => ha x (by simp [hx])) (by simpa using hn)
    obtain ⟨k, hs, _⟩ := stringify_ok isPrint names o.1 (ha o (by simp)).symm
    refine ⟨m.set k (some (fo.add ((m k).getD fo.zero) o.2)), ?_, ?_⟩
    · rw [runAll_append, hm]
      simp only [Except.bind, counterObserve, hs, bind]
    · intro labels k' hk'
      rw [under_append]
      by_cases hl : o.1 = labels
      · subst hl
        rw [hs] at hk'; injection hk' with e; subst e
        rw [LMap.set, if_pos rfl, hk o.1 k hs]
        by_cases hu : under o.1 init = [] <;> simp [hu]
      · have hne : k' ≠ k := by
          rintro rfl
          exact hl ((C26_injective isPrint names o.1 labels (ha o (by simp)).symm ((C26_arity isPrint names labels).2.1 ⟨_, hk'⟩)).1 (hs.trans hk'.symm))
        simp only [LMap.set, hne, if_false, hl]
        exact hk labels k' hk'

example : ((do
    let m ← runAll (fun m (o : List GoStr × Nat) => counterObserve natOps asciiPrint ["k".toList] m o.2 o.1) (fun _ => none) [([[.rune 'a']], 5), ([[.rune 'b']], 1), ([[.rune 'a']], 9)]
    .ok (m "k=\"a\"".toList, m "k=\"b\"".toList, m "k=\"c\"".toList) : Go _).toOption) = some (some 14, some 1, none) := by decide

/-- The relation between the gauge of the code and the abstract gauge. -/
structure GRel (isPrint : Char → Bool) (names : List (List Char)) (s : GaugeSt) (a : AGauge) : Prop where
  slots : ∀ labels k, stringify isPrint names labels = .ok k → s.slots k = a.slots labels
  counters : s.counters = a.sums.map Int64.ofInt

theorem gstep_rel {isPrint : Char → Bool} {names : List (List Char)} {s : GaugeSt} {a : AGauge} (h : GRel isPrint names s a) (op : GOp) :
    match gstep isPrint names s op, astep names.length a op with
    | .ok (s', r), some (a', r') => r = r' ∧ GRel isPrint names s' a'
    | .error _, none => True
    | _, _ => False := by
  have upd : ∀ (labels : List GoStr) (k : List Char) (e : Option Entry), labels.length = names.length → stringify isPrint names labels = .ok k →
      ∀ labels' k', stringify isPrint names labels' = .ok k' →
        s.slots.set k e k' = if labels' = labels then e else a.slots labels' := by
    intro labels k e hl hk labels' k' hk'
    by_cases heq : labels' = labels
    · subst heq; rw [hk] at hk'; injection hk' with hk'; subst hk'; simp [LMap.set]
    · have hne : k' ≠ k := by
        rintro rfl
        exact heq ((C26_injective isPrint names labels' labels ((C26_arity isPrint names labels').2.1 ⟨_, hk'⟩) hl.symm).1 (hk'.trans hk.symm))
      simp only [LMap.set, hne, heq, if_false]
      exact h.slots labels' k' hk'
  cases op with
  | counter labels =>
    by_cases hl : labels.length = names.length
    · obtain ⟨k, hk, _⟩ := stringify_ok isPrint names labels hl.symm
      simp only [gstep, astep, hk, bind, Except.bind, hl, ne_eq, not_true_eq_false, if_false, h.slots labels k hk]
      cases ha : a.slots labels with
      | none =>
        refine ⟨by simp [h.counters], ?_, by simp [h.counters]⟩
        rw [h.counters, List.length_map]
        exact upd labels k _ hl hk
      | some e =>
        cases e with
        | func f => trivial
        | counter p => exact ⟨rfl, h⟩
    · have : stringify isPrint names labels = .error .explicit := (C26_arity isPrint names labels).1.2 (fun e => hl e.symm)
      simp [gstep, astep, this, bind, Except.bind, hl]
  | inc p amt =>
    refine ⟨rfl, h.slots, ?_⟩
    simp only [h.counters]
    apply List.ext_getElem? ; intro i
    simp only [List.getElem?_modify, List.getElem?_map]
    cases a.sums[i]? with
    | none => rfl
    | some x =>
      by_cases e : p = i
      · simp [e, Int64.ofInt_add]
      · simp [e]
  | dec p amt =>
    refine ⟨rfl, h.slots, ?_⟩
    simp only [h.counters]
    apply List.ext_getElem? ; intro i
    simp only [List.getElem?_modify, List.getElem?_map]
    cases a.sums[i]? with
    | none => rfl
    | some x =>
      by_cases e : p = i
      · simp [e, Int.sub_eq_add_neg, Int64.ofInt_add, Int64.ofInt_neg]
      · simp [e]
  | setFunc f labels =>
    by_cases hl : labels.length = names.length
    · obtain ⟨k, hk, _⟩ := stringify_ok isPrint names labels hl.symm
      simp only [gstep, astep, hk, bind, Except.bind, hl, ne_eq, not_true_eq_false, if_false]
      exact ⟨trivial, upd labels k _ hl hk, h.counters⟩
    · have : stringify isPrint names labels = .error .explicit := (C26_arity isPrint names labels).1.2 (fun e => hl e.symm)
      simp [gstep, astep, this, bind, Except.bind, hl]

/-- C29: any sequence of gauge operations panics exactly when the abstract gauge (slots keyed by label tuples, exact integer sums) says so,
i.e. on a wrong number of labels or on `Counter` for a slot holding a function; otherwise each slot holds what the abstract gauge holds
and each counter is the exact sum of its `Inc`s minus its `Dec`s, wrapped to 64 bits. -/
theorem C29_gauge (isPrint : Char → Bool) (names : List (List Char)) (ops : List GOp) :
    match grun isPrint names { slots := fun _ => none, counters := [] } ops, arun names.length { slots := fun _ => none, sums := [] } ops with
    | .ok s, some a => (∀ labels k, stringify isPrint names labels = .ok k → s.slots k = a.slots labels) ∧ s.counters = a.sums.map Int64.ofInt
    | .error _, none => True
    | _, _ => False := by
  have gen : ∀ (ops : List GOp) (s : GaugeSt) (a : AGauge), GRel isPrint names s a →
      match grun isPrint names s ops, arun names.length a ops with
      | .ok s, some a => (∀ labels k, stringify isPrint names labels = .ok k → s.slots k = a.slots labels) ∧ s.counters = a.sums.map Int64.ofInt
      | .error _, none => True
      | _, _ => False := by
    intro ops
    induction ops with
    | nil => intro s a h; exact ⟨h.slots, h.counters⟩
    | cons op ops ih =>
      intro s a h
      have := gstep_rel h op
      simp only [grun, arun]
      cases hg : gstep isPrint names s op with
      | error e =>
        cases ha : astep names.length a op with
        | none => trivial
        | some x => rw [hg, ha] at this; exact this.elim
      | ok x =>
        cases ha : astep names.length a op with
        | none => rw [hg, ha] at this; exact this.elim
        | some y =>
          rw [hg, ha] at this
          exact ih _ _ this.2
  exact gen ops _ _ ⟨fun _ _ _ => rfl, rfl⟩

/-- The same labels give the same counter, and a function takes its place. -/
example : ((grun asciiPrint ["k".toList] { slots := fun _ => none, counters := [] }
    [.counter [[.rune 'a']], .inc 0 7, .counter [[.rune 'a']], .dec 0 2, .counter [[.rune 'b']], .setFunc (some 4) [[.rune 'b']]]).toOption.map
      fun s => (s.counters, s.slots "k=\"a\"".toList, s.slots "k=\"b\"".toList)) = some ([5, 0], some (.counter 0), some (.func 4)) := by decide

/-- C29: `Gauge.Counter` with the right labels panics iff the slot holds a function, and otherwise returns the slot's counter. -/
theorem C29_counter_panics_iff (isPrint : Char → Bool) (names : List (List Char)) (s : GaugeSt) (labels : List GoStr) (k : List Char)
    (hk : stringify isPrint names labels = .ok k) :
    (gstep isPrint names s (.counter labels) = .error .typeAssert ↔ ∃ f, s.slots k = some (.func f)) ∧
    (∀ s' p, gstep isPrint names s (.counter labels) = .ok (s', some p) → s'.slots k = some (.counter p)) := by
  simp only [gstep, hk, bind, Except.bind]
  cases hs : s.slots k with
  | none => simp only [reduceCtorEq, exists_const, false_iff, Except.ok.injEq, Prod.mk.injEq, Option.some.injEq]; refine ⟨by simp, ?_⟩; rintro s' p ⟨rfl, rfl⟩; simp [LMap.set]
  | some e =>
    cases e with
    | func f => simp
    | counter q => simp only [reduceCtorEq, Option.some.injEq, exists_const, iff_self, true_and, Except.ok.injEq, Prod.mk.injEq]; rintro s' p ⟨rfl, rfl⟩; rw [hs]

example : (grun asciiPrint ["k".toList] { slots := fun _ => none, counters := [] } [.setFunc (some 4) [[.rune 'b']], .counter [[.rune 'b']]]).toOption.isNone = true := by decide

/-! ### C30 -/

/-- C30: `Register` panics iff the name is taken; otherwise the new name is bound to the metric and every other binding is kept. -/
theorem C30_register {M : Type} (r : Registry M) (name : String) (m : M) :
    (register r name m = .error .explicit ↔ (r.lookup name).isSome = true) ∧
    (∀ r', register r name m = .ok r' → ∀ n, r'.lookup n = if n = name then some m else r.lookup n) := by
  unfold register
  cases h : r.lookup name with
  | some x => simp
  | none =>
    refine ⟨by simp, ?_⟩
    intro r' hr' n
    injection hr' with hr'; subst hr'
    simp only [List.lookup_append, List.lookup_cons, List.lookup_nil]
    by_cases e : n = name
    · subst e; simp [h]
    · have : (n == name) = false := by simpa using e
      simp [this, e]

example : register [("a", 1)] "a" 2 = .error .explicit ∧ register [("a", 1)] "b" 2 = .ok [("a", 1), ("b", 2)] := by decide

/-- C30: after any sequence of registrations the names are distinct, and each name has the metric of its first registration. -/
theorem C30_first_registration_kept {M : Type} (l : List (String × M)) (r : Registry M)
    (h : runAll (fun r (p : String × M) => register r p.1 p.2) [] l = .ok r) :
    r = l ∧ (l.map (·.1)).Nodup := by
  have gen : ∀ (l : List (String × M)) (r0 r : Registry M), (r0.map (·.1)).Nodup →
      runAll (fun r (p : String × M) => register r p.1 p.2) r0 l = .ok r → r = r0 ++ l ∧ ((r0 ++ l).map (·.1)).Nodup := by
    intro l
    induction l with
    | nil => intro r0 r hn h; injection h with h; subst h; simp [hn]
    | cons p l ih =>
      intro r0 r hn h
      simp only [runAll, register] at h
      cases hl : r0.lookup p.1 with
      | some x => rw [hl] at h; cases h
      | none =>
        rw [hl] at h
        have hnew : p.1 ∉ r0.map (·.1) := by
          intro hm
          obtain ⟨q, hq, he⟩ := List.mem_map.1 hm
          rw [List.lookup_eq_none_iff] at hl
          have := hl q hq
          simp [he] at this
        have := ih (r0 ++ [(p.1, p.2)]) r (by
          rw [List.map_append, List.nodup_append]
          refine ⟨hn, by simp, ?_⟩
          intro a ha b hb
          simp at hb; subst hb
          rintro rfl; exact hnew ha) h
        simpa using this
  have := gen l [] r (by simp) h
  simpa using this

example : (runAll (fun r (p : String × Nat) => register r p.1 p.2) [] [("b", 1), ("a", 2)]).toOption = some [("b", 1), ("a", 2)] ∧
    (runAll (fun r (p : String × Nat) => register r p.1 p.2) [] [("b", 1), ("b", 2)]).toOption = none := by decide

/-- C30: `Range` visits the metrics of a snapshot once each, in the iteration order, up to and including the first that fails. -/
theorem C30_range {M E : Type} (f : String → M → Option E) (order : List (String × M)) :
    rangeOut (fun n m (seen : List (String × M)) => (seen ++ [(n, m)], f n m)) order [] =
      (match order.findIdx? (fun p => (f p.1 p.2).isSome) with
       | none => (order, none)
       | some i => (order.take (i + 1), (order[i]?).bind (fun p => f p.1 p.2))) := by
  have gen : ∀ (l pre : List (String × M)), rangeOut (fun n m (seen : List (String × M)) => (seen ++ [(n, m)], f n m)) l pre =
      (match l.findIdx? (fun p => (f p.1 p.2).isSome) with
       | none => (pre ++ l, none)
       | some i => (pre ++ l.take (i + 1), (l[i]?).bind (fun p => f p.1 p.2))) := by
    intro l
    induction l with
    | nil => intro pre; simp [rangeOut]
    | cons p l ih =>
      intro pre
      obtain ⟨n, m⟩ := p
      simp only [rangeOut, List.findIdx?_cons]
      cases hf : f n m with
      | some e => simp [hf]
      | none =>
        simp only [Option.isSome_none, Bool.false_eq_true, if_false]
        rw [ih]
        cases l.findIdx? (fun p => (f p.1 p.2).isSome) <;> simp
  have := gen order []
  simpa using this

example : rangeOut (fun n m (seen : List (String × Nat)) => (seen ++ [(n, m)], if m = 2 then some () else none)) [("a", 1), ("b", 2), ("c", 3)] [] =
    ([("a", 1), ("b", 2)], some ()) := by decide

/-! ### C66 -/

/-- C66 (violated): the rendering of a tab is not readable as a Prometheus label value, and a NUL is not either. -/
theorem C66_exposition_violated (isPrint : Char → Bool) (h : isPrint '\t' = false) :
    promUnquote (quote isPrint [.rune 'a', .rune '\t']) = none := by
  have e : escape isPrint (.rune '\t') = ['\\', 't'] := by
    simp [escape, h, namedEscape]
  have ea : ∃ w, escape isPrint (.rune 'a') = w ∧ (w = ['a'] ∨ ∃ r, w = '\\' :: 'x' :: r ∨ w = '\\' :: 'u' :: r) := by
    refine ⟨_, rfl, ?_⟩
    simp only [escape]
    by_cases hp : isPrint 'a' = true
    · simp [hp]
    · simp [hp, namedEscape]
  obtain ⟨w, hw, hc⟩ := ea
  simp only [quote, List.flatMap_cons, List.flatMap_nil, e, hw, promUnquote]
  rcases hc with rfl | ⟨r, rfl | rfl⟩ <;> simp [promUnescape]

/-- C66 (partial): label values made of printable characters and newlines are read back exactly. -/
theorem C66_exposition_partial (isPrint : Char → Bool) (hnl : isPrint '\n' = false) (s : List Char)
    (h : ∀ c ∈ s, isPrint c = true ∨ c = '\n') : promUnquote (quote isPrint (s.map .rune)) = some s := by
  simp only [quote, promUnquote]
  induction s with
  | nil => simp [promUnescape]
  | cons c s ih =>
    have ih := ih (fun c hc => h c (by simp [hc]))
    simp only [List.map_cons, List.flatMap_cons, List.append_assoc]
    by_cases h1 : c = '"'
    · subst h1; simp [escape, promUnescape, ih]
    by_cases h2 : c = '\\'
    · subst h2; simp [escape, promUnescape, ih]
    rcases h c (by simp) with hp | rfl
    · have : escape isPrint (.rune c) = [c] := by simp [escape, h1, h2, hp]
      rw [this, List.singleton_append, promUnescape.eq_def]
      split <;> simp_all
    · have : escape isPrint (.rune '\n') = ['\\', 'n'] := by simp [escape, hnl, namedEscape]
      rw [this]
      simp [promUnescape, ih]

example : promUnquote (quote asciiPrint ("a\"\\\nb".toList.map .rune)) = some "a\"\\\nb".toList := C66_exposition_partial asciiPrint (by decide) _ (by decide)

/-! ### concrete cases -/

example : stringify asciiPrint ["op".toList, "loc".toList] [[.rune 'a', .rune '"'], [.bad 0xff (by decide) (by decide)]] =
    .ok "op=\"a\\\"\",loc=\"\\xff\"".toList := by decide
example : stringify asciiPrint ["op".toList] [] = .error .explicit := by decide

example : ((do
    let m ← runAll (fun m (o : List GoStr × Nat) => histObserve natOps asciiPrint ["k".toList] [1, 5] m o.2 o.1) (fun _ => none)
      [([[.rune 'a']], 3), ([[.rune 'b']], 1), ([[.rune 'a']], 9), ([[.rune 'a']], 0)]
    match m "k=\"a\"".toList with
    | some t => do let p ← t.print [1, 5]; .ok (some (p.buckets, p.inf, p.sum))
    | none => .ok none) : Go (Option (List (Nat × Nat) × Nat × Nat))) = .ok (some ([(1, 1), (5, 2)], 3, 12)) := by decide
example : hrun natOps [1, 5] (fun _ => none) [.store ['x'], .store ['y'], .observe ['y'] 3, .print ['y'], .print ['x']] |>.toOption.isNone := by decide

end Verif.Prom

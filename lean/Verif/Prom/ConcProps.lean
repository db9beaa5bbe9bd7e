import Verif.Prom.Conc
/-!
# C149: observing and scraping at the same time
-/
set_option autoImplicit false
namespace Verif.Prom.Conc

section
variable {κ σ ω : Type} [DecidableEq κ]

/-- Everything that is kept by the steps is true after any interleaving. -/
theorem run_induct (K : Kind σ ω) (P : St κ σ ω → List (Ev κ σ ω) → Prop) (hstep : ∀ s tr t s' e, P s tr → step K s t = some (s', e) → P s' (tr ++ e)) :
    ∀ (l : List Nat) (s : St κ σ ω) (tr : List (Ev κ σ ω)), P s tr → P (run K (s, tr) l).1 (run K (s, tr) l).2
  | [], _, _, h => h
  | t :: l, s, tr, h => by
    simp only [run]
    cases hs : step K s t with
    | none => exact run_induct K P hstep l s tr h
    | some r => exact run_induct K P hstep l r.1 (tr ++ r.2) (hstep s tr t r.1 r.2 h hs)

theorem inv_run (K : Kind σ ω) (prog : Nat → List (Job κ ω)) (l : List Nat) : Inv K (run K (start K prog, []) l).1 (run K (start K prog, []) l).2 :=
  run_induct K (Inv K) (fun s tr t s' e hi hs => inv_step K s s' tr e t hi hs) l _ _ (inv_start K prog)

theorem hist_run (K : Kind σ ω) (prog : Nat → List (Job κ ω)) (l : List Nat) : Hist prog (run K (start K prog, []) l).1 (run K (start K prog, []) l).2 :=
  run_induct K (Hist prog) (fun s tr t s' e h hs => hist_step K prog s s' tr e t h hs) l _ _ (fun _ => ⟨rfl, rfl, rfl⟩)

/-- A step is seen as at most one event. -/
theorem step_short (K : Kind σ ω) (s s' : St κ σ ω) (t : Nat) (e : List (Ev κ σ ω)) (hs : step K s t = some (s', e)) : e = [] ∨ ∃ x, e = [x] := by
  unfold step at hs
  split at hs <;> (try split at hs) <;> (try split at hs) <;> simp only [Option.some.injEq, Prod.mk.injEq, reduceCtorEq] at hs <;> obtain ⟨_, rfl⟩ := hs <;> simp

/-- What a scrape reads is the value of the series, if it takes the lock or a first write changes nothing. -/
theorem step_read (K : Kind σ ω) (hk : K.locks = true ∨ ∀ s x, K.mid s x = s) (s s' : St κ σ ω) (tr e : List (Ev κ σ ω)) (t u : Nat) (k : κ) (v : σ) (hi : Inv K s tr)
    (hs : step K s t = some (s', e)) (he : e = [.read u k v]) : v = value K (commits k tr) := by
  subst he
  have hloc : ∀ p, s.map k = some p → (K.locks = true → (s.thr t).pc = .sHeld k p) → (s.heap p).val = value K (commits k tr) := by
    intro p hm hl
    rcases hi.val k p hm with h | ⟨w, x, old, hw⟩
    · exact h
    · obtain ⟨e1, e2⟩ := hi.half w k x p old hw
      rcases hk with hk | hk
      · have a := (hi.lock p w (hi.ptr k p hm)).2 (by rw [hw]; rfl)
        have b := (hi.lock p t (hi.ptr k p hm)).2 (by rw [hl hk]; rfl)
        rw [a] at b
        cases b
        rw [hl hk] at hw
        cases hw
      · rw [e2, hk, e1]
  unfold step at hs
  cases hpc : (s.thr t).pc <;> simp only [hpc] at hs
  case idle => split at hs <;> (try split at hs) <;> simp at hs
  case got => split at hs <;> simp at hs
  case sGot k' p =>
    split at hs
    · split at hs <;> simp at hs
    · rename_i hl
      simp only [Option.some.injEq, Prod.mk.injEq, List.cons.injEq, Ev.read.injEq, and_true] at hs
      obtain ⟨_, _, rfl, rfl⟩ := hs
      exact hloc p (hi.on t k' p (by rw [hpc]; rfl)) (fun h => absurd h hl)
  case sHeld k' p =>
    simp only [Option.some.injEq, Prod.mk.injEq, List.cons.injEq, Ev.read.injEq, and_true] at hs
    obtain ⟨_, _, rfl, rfl⟩ := hs
    exact hloc p (hi.on t k' p (by rw [hpc]; rfl)) (fun _ => hpc)
  all_goals simp at hs

theorem snoc_split {α : Type} (tr a b : List α) (x y : α) (h : tr ++ [x] = a ++ y :: b) : (b = [] ∧ x = y ∧ tr = a) ∨ ∃ b', b = b' ++ [x] ∧ tr = a ++ y :: b' := by
  rcases List.eq_nil_or_concat b with rfl | ⟨b', z, rfl⟩
  · obtain ⟨h1, h2⟩ := List.append_inj' (s₁ := tr) (s₂ := a) h rfl
    exact .inl ⟨rfl, by simpa using h2, h1⟩
  · have h' : tr ++ [x] = (a ++ y :: b') ++ [z] := by rw [h]; simp
    obtain ⟨h1, h2⟩ := List.append_inj' (s₁ := tr) h' rfl
    obtain rfl : x = z := by simpa using h2
    exact .inr ⟨b', List.concat_eq_append, h1⟩

/-- C149 (partial): in every interleaving, what a scrape shows of a series is the outcome of exactly the observations that took effect before it, one after the other: none is lost, none is
seen in the middle. For scrapes with the lock (histograms), and for those without if observing is one write (counters). Missing: a scrape shows several series of one moment, see
`C149_moment_violated`. -/
theorem C149_scrape_partial (K : Kind σ ω) (hk : K.locks = true ∨ ∀ s x, K.mid s x = s) (prog : Nat → List (Job κ ω)) (l : List Nat) (a b : List (Ev κ σ ω)) (t : Nat) (k : κ) (v : σ)
    (h : (run K (start K prog, []) l).2 = a ++ .read t k v :: b) : v = value K (commits k a) := by
  have := run_induct K (fun s tr => Inv K s tr ∧ ∀ a b t k v, tr = a ++ .read t k v :: b → v = value K (commits k a)) ?_ l (start K prog) [] ⟨inv_start K prog, by intros; simp_all⟩
  · exact this.2 a b t k v h
  · intro s tr t s' e ⟨hi, hr⟩ hs
    refine ⟨inv_step K s s' tr e t hi hs, ?_⟩
    intro a b u k v hab
    rcases step_short K s s' t e hs with rfl | ⟨x, rfl⟩
    · exact hr a b u k v (by simpa using hab)
    · rcases snoc_split tr a b x _ hab with ⟨_, rfl, rfl⟩ | ⟨b', _, hb⟩
      · exact step_read K hk s s' tr _ t u k v hi hs rfl
      · exact hr a b' u k v hb

/-- C149: at every moment of every interleaving, the observations of a goroutine that returned are the first of those that took effect, which are the first of those called, which are
the first of its program: an observation takes effect once, between its call and its return. -/
theorem C149_once (K : Kind σ ω) (prog : Nat → List (Job κ ω)) (l : List Nat) (a : List (Ev κ σ ω)) (h : a <+: (run K (start K prog, []) l).2) (t : Nat) :
    rets t a <+: took t a ∧ took t a <+: calls t a ∧ calls t a <+: observations (prog t) := by
  have := run_induct K (fun s tr => Hist prog s tr ∧ ∀ a, a <+: tr → ∀ t, rets t a <+: took t a ∧ took t a <+: calls t a ∧ calls t a <+: observations (prog t)) ?_ l (start K prog) []
    ⟨fun _ => ⟨rfl, rfl, rfl⟩, ?_⟩
  · exact this.2 a h t
  · intro s tr t s' e ⟨hh, hr⟩ hs
    have hh' := hist_step K prog s s' tr e t hh hs
    refine ⟨hh', ?_⟩
    intro a ha u
    have hwhole : rets u (tr ++ e) <+: took u (tr ++ e) ∧ took u (tr ++ e) <+: calls u (tr ++ e) ∧ calls u (tr ++ e) <+: observations (prog u) := by
      obtain ⟨h1, h2, h3⟩ := hh' u
      exact ⟨⟨_, h3.symm⟩, ⟨_, h2.symm⟩, ⟨_, h1.symm⟩⟩
    rcases step_short K s s' t e hs with rfl | ⟨x, rfl⟩
    · exact hr a (by simpa using ha) u
    · rcases List.prefix_concat_iff.1 ha with rfl | ha
      · exact hwhole
      · exact hr a ha u
  · intro a ha u
    obtain rfl : a = [] := by simpa using ha
    exact ⟨List.nil_prefix, List.nil_prefix, List.nil_prefix⟩

/-- C149 (partial): a later scrape shows at least what an earlier one showed. -/
theorem C149_grows_partial (K : Kind σ ω) (hk : K.locks = true ∨ ∀ s x, K.mid s x = s) (prog : Nat → List (Job κ ω)) (l : List Nat) (a b c : List (Ev κ σ ω)) (t u : Nat) (k : κ) (v w : σ)
    (h : (run K (start K prog, []) l).2 = a ++ .read t k v :: b ++ .read u k w :: c) : ∃ n m, v = value K n ∧ w = value K (n ++ m) := by
  refine ⟨commits k a, commits k b, C149_scrape_partial K hk prog l a (b ++ .read u k w :: c) t k v (by rw [h]; simp), ?_⟩
  have := C149_scrape_partial K hk prog l (a ++ .read t k v :: b) c u k w h
  rw [this, commits_append]
  rfl

/-! ### at the end -/

/-- The observations of a series in a list. -/
def under (k : κ) (l : List (κ × ω)) : List ω := l.filterMap fun o => if o.1 = k then some o.2 else none

/-- Nobody has anything to do. -/
def Quiet (s : St κ σ ω) : Prop := ∀ t, (s.thr t).todo = [] ∧ (s.thr t).pc = .idle

theorem flat_insert {α : Type} (g : Nat → List α) (t : Nat) (a : α) : ∀ n, t < n →
    ((List.range n).flatMap fun i => if i = t then a :: g i else g i).Perm (a :: (List.range n).flatMap g)
  | 0, h => absurd h (Nat.not_lt_zero t)
  | n + 1, h => by
    rw [List.range_succ, List.flatMap_append, List.flatMap_append]
    by_cases ht : t = n
    · have e : ((List.range n).flatMap fun i => if i = t then a :: g i else g i) = (List.range n).flatMap g := by
        rw [List.flatMap_def, List.flatMap_def]
        congr 1
        apply List.map_congr_left
        intro i hi
        have := List.mem_range.1 hi
        rw [if_neg (by omega)]
      rw [e]
      simp only [List.flatMap_cons, List.flatMap_nil, List.append_nil, if_pos ht.symm]
      exact List.perm_middle
    · have := flat_insert g t a n (by omega)
      simp only [List.flatMap_cons, List.flatMap_nil, List.append_nil, if_neg (fun e => ht e.symm : ¬ n = t)]
      exact this.append_right (g n)

theorem flat_nil {α : Type} : ∀ l : List Nat, (l.flatMap fun _ => ([] : List α)) = []
  | [] => rfl
  | _ :: l => by rw [List.flatMap_cons, flat_nil l]; rfl

/-- What took effect on a series is what took effect by each goroutine, mixed. -/
theorem commits_perm (k : κ) (n : Nat) : ∀ tr : List (Ev κ σ ω), (∀ t, n ≤ t → took t tr = []) → (commits k tr).Perm ((List.range n).flatMap fun t => under k (took t tr))
  | [], _ => by
    simp only [took, commits, under, List.filterMap_nil]
    rw [flat_nil]
  | e :: tr, h => by
    have ih := commits_perm k n tr (fun t ht => by
      have := h t ht
      cases e <;> simp only [took, List.filterMap_cons] at this ⊢ <;> (try exact this)
      split at this <;> simp_all)
    cases e with
    | commit u k' x =>
      have hu : u < n := by
        apply Decidable.byContradiction
        intro hn
        have := h u (by omega)
        simp [took] at this
      have hg : ∀ t, under k (took t (Ev.commit u k' x :: tr)) = if t = u then (if k' = k then [x] else []) ++ under k (took t tr) else under k (took t tr) := by
        intro t
        by_cases htu : u = t
        · subst htu
          by_cases hk : k' = k <;> simp [took, under, hk]
        · have : ¬ t = u := fun e => htu e.symm
          simp [took, under, htu, this]
      simp only [commits]
      by_cases hk : k' = k
      · simp only [if_pos hk] at hg ⊢
        rw [show (fun t => under k (took t (Ev.commit u k' x :: tr))) = fun t => if t = u then x :: under k (took t tr) else under k (took t tr) from funext fun t => by rw [hg t]; rfl]
        exact (ih.cons x).trans (flat_insert _ u x n hu).symm
      · simp only [if_neg hk] at hg ⊢
        rw [show (fun t => under k (took t (Ev.commit u k' x :: tr))) = fun t => under k (took t tr) from funext fun t => by rw [hg t]; simp]
        exact ih
    | call u k' x => simpa only [commits, took, List.filterMap_cons] using ih
    | ret u k' x => simpa only [commits, took, List.filterMap_cons] using ih
    | read u k' v => simpa only [commits, took, List.filterMap_cons] using ih

/-- C149: when `n` goroutines are done, in whatever interleaving, every series has the value of all observations made of it, in some order; there is a series exactly if something
was observed. -/
theorem C149_total (K : Kind σ ω) (prog : Nat → List (Job κ ω)) (n : Nat) (hn : ∀ t, n ≤ t → prog t = []) (l : List Nat) (hq : Quiet (run K (start K prog, []) l).1) (k : κ) :
    ∃ order : List ω, order.Perm ((List.range n).flatMap fun t => under k (observations (prog t))) ∧
      (((run K (start K prog, []) l).1.map k = none ∧ order = []) ∨
        ∃ p, (run K (start K prog, []) l).1.map k = some p ∧ ((run K (start K prog, []) l).1.heap p).val = value K order) := by
  have hi := inv_run K prog l
  have hh := hist_run K prog l
  generalize run K (start K prog, []) l = r at hi hh hq
  have ht : ∀ t, took t r.2 = observations (prog t) := by
    intro t
    obtain ⟨h1, h2, h3⟩ := hh t
    rw [(hq t).1] at h1
    rw [(hq t).2] at h2
    have : observations ([] : List (Job κ ω)) = [] := rfl
    rw [h1, this, List.append_nil, h2]
    exact (List.append_nil _).symm
  refine ⟨commits k r.2, ?_, ?_⟩
  · have := commits_perm k n r.2 (fun t h => by rw [ht t, hn t h]; rfl)
    simpa only [ht] using this
  · cases hm : r.1.map k with
    | none => exact .inl ⟨rfl, hi.new k hm⟩
    | some p =>
      refine .inr ⟨p, rfl, ?_⟩
      rcases hi.val k p hm with h | ⟨t, x, old, hx⟩
      · exact h
      · rw [(hq t).2] at hx
        cases hx

/-- C149: if the order of observations does not matter for the value, the value at the end does not depend on the interleaving. -/
theorem C149_deterministic (K : Kind σ ω) (hc : ∀ s x y, K.app (K.app s x) y = K.app (K.app s y) x) (prog : Nat → List (Job κ ω)) (n : Nat) (hn : ∀ t, n ≤ t → prog t = []) (l : List Nat)
    (hq : Quiet (run K (start K prog, []) l).1) (k : κ) (p : Nat) (hp : (run K (start K prog, []) l).1.map k = some p) :
    ((run K (start K prog, []) l).1.heap p).val = value K ((List.range n).flatMap fun t => under k (observations (prog t))) := by
  obtain ⟨order, hperm, ⟨h, _⟩ | ⟨q, h, hv⟩⟩ := C149_total K prog n hn l hq k
  · rw [hp] at h; cases h
  · rw [hp] at h
    cases h
    rw [hv]
    exact hperm.foldl_eq' (fun x _ y _ z => hc z x y) K.init

/-- C149: nobody waits for ever: as long as somebody has something to do, somebody can go on. -/
theorem C149_progress (K : Kind σ ω) (prog : Nat → List (Job κ ω)) (l : List Nat) (h : ¬ Quiet (run K (start K prog, []) l).1) : ∃ t, step K (run K (start K prog, []) l).1 t ≠ none := by
  have hi := inv_run K prog l
  generalize run K (start K prog, []) l = r at hi h
  have holder : ∀ p u, p < r.1.next → (r.1.heap p).lock = some u → step K r.1 u ≠ none := by
    intro p u hp hl
    have := (hi.lock p u hp).1 hl
    unfold step
    cases hpc : (r.1.thr u).pc <;> simp [hpc, Pc.holds] at this ⊢
  have : ∃ t, ¬ ((r.1.thr t).todo = [] ∧ (r.1.thr t).pc = .idle) := Classical.not_forall.1 h
  obtain ⟨t, ht⟩ := this
  have wait : ∀ k p, (r.1.thr t).pc.on = some (k, p) → ∀ u, (r.1.heap p).lock = some u → ∃ t, step K r.1 t ≠ none :=
    fun k p hon u hl => ⟨u, holder p u (hi.ptr k p (hi.on t k p hon)) hl⟩
  cases hpc : (r.1.thr t).pc with
  | idle =>
    refine ⟨t, ?_⟩
    unfold step
    simp only [hpc]
    cases htd : (r.1.thr t).todo with
    | nil => exact absurd ⟨htd, hpc⟩ ht
    | cons j td => cases j <;> simp only <;> split <;> simp
  | got k x p =>
    cases hl : (r.1.heap p).lock with
    | some u => exact wait k p (by rw [hpc]; rfl) u hl
    | none => exact ⟨t, by unfold step; simp [hpc, hl]⟩
  | sGot k p =>
    cases hl : (r.1.heap p).lock with
    | some u => exact wait k p (by rw [hpc]; rfl) u hl
    | none =>
      refine ⟨t, ?_⟩
      unfold step
      simp only [hpc, hl]
      split <;> simp
  | _ => exact ⟨t, by unfold step; simp [hpc]⟩

end

/-! ### counters and histograms -/

/-- A counter: one write, scraped without the lock. counter.go L27-32, L53-60. -/
def counter {F : Type} (fo : FloatOps F) : Kind F F := ⟨fo.zero, fun s _ => s, fo.add, false⟩

/-- A histogram: the count and the sum are written before the buckets; scraped with the lock. histogram.go L38-54, L74-76. -/
def histogram {F : Type} (fo : FloatOps F) (les : List F) : Kind (TS F) F :=
  ⟨TS.new fo, fun t v => { t with count := t.count + 1, sum := fo.add t.sum v }, fun t v => (t.observe fo les v).toOption.getD t, true⟩

theorem histogram_value {F : Type} (fo : FloatOps F) (les : List F) (l : List F) : value (histogram fo les) l = if l = [] then TS.new fo else TS.after fo les l := by
  have snoc : ∀ (l : List F) (x : F), value (histogram fo les) (l ++ [x]) = TS.after fo les (l ++ [x]) := by
    intro l
    induction hl : l.length generalizing l with
    | zero =>
      obtain rfl : l = [] := List.length_eq_zero_iff.1 hl
      intro x
      show (TS.observe fo les (TS.new fo) x).toOption.getD (TS.new fo) = _
      rw [observe_new]
      rfl
    | succ n ih =>
      intro x
      rcases List.eq_nil_or_concat l with rfl | ⟨l', y, rfl⟩
      · simp at hl
      · rw [value_snoc, List.concat_eq_append, ih l' (by simpa using hl) y]
        show (TS.observe fo les (TS.after fo les (l' ++ [y])) x).toOption.getD _ = _
        rw [observe_after]
        rfl
  rcases List.eq_nil_or_concat l with rfl | ⟨l', y, rfl⟩
  · rfl
  · rw [List.concat_eq_append, snoc]
    simp

/-- C149 (partial): the value a scrape shows of a counter is the sum, from zero in some order, of the observations that took effect before: though it is read without the lock.
Missing: the read is a data race (`C149_race_violated`), so this depends on a word being read whole. -/
theorem C149_counter_partial {F κ : Type} [DecidableEq κ] (fo : FloatOps F) (prog : Nat → List (Job κ F)) (l : List Nat) (a b : List (Ev κ F F)) (t : Nat) (k : κ) (v : F)
    (h : (run (counter fo) (start (counter fo) prog, []) l).2 = a ++ .read t k v :: b) : v = (commits k a).foldl fo.add fo.zero :=
  C149_scrape_partial (counter fo) (.inr fun _ _ => rfl) prog l a b t k v h

/-- C149 (partial): the buckets, the sum and the count a scrape shows of a series of a histogram are all of the same observations. Missing: before the first observation there are no buckets,
and the scrape panics (C28). -/
theorem C149_histogram_partial {F κ : Type} [DecidableEq κ] (fo : FloatOps F) (les : List F) (prog : Nat → List (Job κ F)) (l : List Nat) (a b : List (Ev κ (TS F) F)) (t : Nat) (k : κ)
    (v : TS F) (h : (run (histogram fo les) (start (histogram fo les) prog, []) l).2 = a ++ .read t k v :: b) (hne : commits k a ≠ []) :
    v.count = (commits k a).length ∧ v.sum = (commits k a).foldl fo.add fo.zero ∧ v.buckets = les.map fun le => (commits k a).countP (fun x => fo.le x le) := by
  have hv := C149_scrape_partial (histogram fo les) (.inl rfl) prog l a b t k v h
  rw [histogram_value, if_neg hne] at hv
  subst hv
  exact ⟨rfl, rfl, rfl⟩

/-- Two goroutines observe and a third scrapes. -/
def three : Nat → List (Job Bool Nat)
  | 0 => [.observe true 3, .observe false 2]
  | 1 => [.observe true 4]
  | 2 => [.scrape true, .scrape false]
  | _ => []

/-- What was read of which series. -/
def readings {κ σ ω : Type} (tr : List (Ev κ σ ω)) : List (κ × σ) := tr.filterMap fun
  | .read _ k v => some (k, v)
  | _ => none

/-- The second observation waits for the lock; a counter is read before the first write, a histogram after the unlock. -/
example : readings (run (counter natOps) (start (counter natOps) three, []) [0, 1, 0, 1, 2, 0, 1, 2, 0, 2]).2 = [(true, 0)] ∧
    commits true (run (counter natOps) (start (counter natOps) three, []) [0, 1, 0, 1, 2, 0, 1, 2, 0, 2]).2 = [3] ∧
    step (counter natOps) (run (counter natOps) (start (counter natOps) three, []) [0, 1, 0, 1, 2, 0, 1, 2, 0, 2]).1 1 = none := by decide

example : (readings (run (histogram natOps [3]) (start (histogram natOps [3]) three, []) [0, 1, 0, 1, 2, 0, 2, 0, 2, 0, 2, 2]).2).map (fun r => (r.1, r.2.buckets, r.2.sum, r.2.count)) =
    [(true, [1], 3, 1)] ∧
    (readings (run (histogram natOps [3]) (start (histogram natOps [3]) three, []) [0, 0, 0, 0, 0, 1, 1, 1, 1, 1, 2, 2, 2, 2]).2).map (fun r => (r.1, r.2.buckets, r.2.sum, r.2.count)) =
    [(true, [1], 7, 2)] := by decide

/-- Without the lock, a scrape of a histogram would see an observation in the middle: the sum with the value, the buckets without. -/
example : (readings (run { histogram natOps [3] with locks := false } (start (histogram natOps [3]) three, []) [0, 0, 0, 2, 2]).2).map (fun r => (r.1, r.2.buckets, r.2.sum, r.2.count)) =
    [(true, [], 3, 1)] := by decide

/-- At the end: 3 + 4 and 2. -/
example : let s := (run (counter natOps) (start (counter natOps) three, []) [0, 1, 0, 1, 0, 2, 0, 0, 1, 1, 1, 1, 0, 0, 0, 0, 0, 2, 2, 2]).1
    s.map true = some 0 ∧ s.map false = some 1 ∧ (s.heap 0).val = 7 ∧ (s.heap 1).val = 2 ∧ (s.thr 0).todo.length = 0 ∧ (s.thr 1).todo.length = 0 ∧ (s.thr 2).todo.length = 0 := by decide

example : let tr := (run (counter natOps) (start (counter natOps) three, []) [0, 0, 0, 0, 1, 0, 0]).2
    calls 0 tr = [(true, 3), (false, 2)] ∧ took 0 tr = [(true, 3)] ∧ rets 0 tr = [(true, 3)] ∧ calls 1 tr = [(true, 4)] ∧ took 1 tr = [] := by decide

/-! ### what does not hold -/

/-- One goroutine counts two series in turn, twice; another scrapes both. -/
def twice : Nat → List (Job Bool Nat)
  | 0 => [.observe false 1, .observe true 1, .observe false 1, .observe true 1]
  | 1 => [.scrape false, .scrape true]
  | _ => []

/-- The value of a counter at any moment. -/
theorem counter_cell {F κ : Type} [DecidableEq κ] (fo : FloatOps F) (s : St κ F F) (tr : List (Ev κ F F)) (hi : Inv (counter fo) s tr) (k : κ) (p : Nat) (h : s.map k = some p) :
    (s.heap p).val = (commits k tr).foldl fo.add fo.zero := by
  rcases hi.val k p h with h | ⟨t, x, old, hx⟩
  · exact h
  · obtain ⟨e1, e2⟩ := hi.half t k x p old hx
    rw [e2]
    exact e1

/-- C149 (violated): a scrape of several series is no picture of a moment: here it shows 1 for the first and 2 for the second, which are never so at the same time in any interleaving. -/
theorem C149_moment_violated : (∃ l, readings (run (counter natOps) (start (counter natOps) twice, []) l).2 = [(false, 1), (true, 2)]) ∧
    ∀ l p q, (run (counter natOps) (start (counter natOps) twice, []) l).1.map false = some p → (run (counter natOps) (start (counter natOps) twice, []) l).1.map true = some q →
      ¬ (((run (counter natOps) (start (counter natOps) twice, []) l).1.heap p).val = 1 ∧ ((run (counter natOps) (start (counter natOps) twice, []) l).1.heap q).val = 2) := by
  constructor
  · exact ⟨List.replicate 10 0 ++ [1, 1] ++ List.replicate 10 0 ++ [1, 1], by decide⟩
  · intro l p q hp hq
    have hi := inv_run (counter natOps) twice l
    have ho := fun t => C149_once (counter natOps) twice l _ (List.prefix_refl _) t
    generalize run (counter natOps) (start (counter natOps) twice, []) l = r at hi ho hp hq
    rw [counter_cell natOps r.1 r.2 hi false p hp, counter_cell natOps r.1 r.2 hi true q hq]
    have hnone : ∀ t, 1 ≤ t → took t r.2 = [] := by
      intro t ht
      have h1 := (ho t).2.1.trans (ho t).2.2
      match t with
      | 0 => omega
      | 1 => exact List.prefix_nil.1 h1
      | t + 2 => exact List.prefix_nil.1 h1
    have hsum : ∀ k, (commits k r.2).foldl natOps.add natOps.zero = (under k (took 0 r.2)).foldl natOps.add natOps.zero := by
      intro k
      have := commits_perm k 1 r.2 hnone
      simp only [List.range_succ, List.range_zero, List.nil_append, List.flatMap_cons, List.flatMap_nil, List.append_nil] at this
      exact this.foldl_eq' (fun x _ y _ z => Nat.add_right_comm z x y) _
    rw [hsum, hsum]
    have hpre := (ho 0).2.1.trans (ho 0).2.2
    have all : ∀ n, n < 5 → ¬ ((under false ((observations (twice 0)).take n)).foldl natOps.add natOps.zero = 1 ∧ (under true ((observations (twice 0)).take n)).foldl natOps.add natOps.zero = 2) := by
      decide
    have hlen : (took 0 r.2).length < 5 := Nat.lt_succ_of_le hpre.length_le
    rw [List.prefix_iff_eq_take.1 hpre]
    exact all _ hlen

/-- C149 (violated): a scrape of a counter reads the sum while somebody else, who has the lock, may be about to write it: a data race. -/
theorem C149_race_violated : ∃ l : List Nat, ((run (counter natOps) (start (counter natOps) twice, []) l).1.thr 0).pc = .half false 1 0 1 ∧
    ((run (counter natOps) (start (counter natOps) twice, []) l).1.thr 1).pc = .sGot false 0 ∧ ((run (counter natOps) (start (counter natOps) twice, []) l).1.heap 0).lock = some 0 ∧
    step (counter natOps) (run (counter natOps) (start (counter natOps) twice, []) l).1 1 ≠ none :=
  ⟨List.replicate 13 0 ++ [1], rfl, rfl, rfl, by decide⟩

end Verif.Prom.Conc

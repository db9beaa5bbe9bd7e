import Verif.Prom.Print
import Verif.Prom.Props
/-!
# Properties of the scrape output (C106, C107, C108)
-/
set_option autoImplicit false
namespace Verif.Prom
open Verif.Strconv Verif.Enc

/-! ### C106 -/

theorem writeAll_append (fails : Nat → Bool) (a b : List Str) (w : W) :
    writeAll fails (a ++ b) w = match writeAll fails a w with
      | (w, true) => (w, true)
      | (w, false) => writeAll fails b w := by
  induction a generalizing w with
  | nil => rfl
  | cons l a ih =>
    simp only [List.cons_append, writeAll]
    obtain ⟨⟨w', e⟩, h⟩ : ∃ o, fprintf fails w l = o := ⟨_, rfl⟩
    rw [h]
    cases e
    · exact ih w'
    · rfl

theorem header_eq (fails : Nat → Bool) (name desc kind : Str) (w : W) :
    header fails name desc kind w = writeAll fails [helpLine name desc, typeLine name kind] w := by
  simp only [header, writeAll]
  obtain ⟨⟨w', e⟩, h⟩ : ∃ o, fprintf fails w (helpLine name desc) = o := ⟨_, rfl⟩
  rw [h]
  cases e
  · simp only
    obtain ⟨⟨w'', e⟩, h⟩ : ∃ o, fprintf fails w' (typeLine name kind) = o := ⟨_, rfl⟩
    rw [h]; cases e <;> rfl
  · rfl

/-- The lines a metric with series should print: nothing without series, otherwise its two comments and then its samples. -/
def familyLines (name desc kind : Str) (samples : List Str) : List Str :=
  if samples = [] then [] else helpLine name desc :: typeLine name kind :: samples

/-- A `Print` loop whose callback prints the header once and then the lines of an entry. -/
theorem range_family {V : Type} (fails : Nat → Bool) (name desc kind : Str) (lines : Str → V → List Str) (hne : ∀ l v, lines l v ≠ [])
    (entries : List (Str × V)) (w : W) (f : Str → V → Bool × W → (Bool × W) × Bool)
    (hf : ∀ l v st, f l v st = match (if st.1 then header fails name desc kind st.2 else (st.2, false)) with
      | (w, true) => ((false, w), true)
      | (w, false) => ((false, (writeAll fails (lines l v) w).1), (writeAll fails (lines l v) w).2)) :
    ((rangeErr f entries (true, w)).1.2, (rangeErr f entries (true, w)).2) =
      writeAll fails (familyLines name desc kind (entries.flatMap (fun e => lines e.1 e.2))) w := by
  have rest : ∀ (entries : List (Str × V)) (w : W), ((rangeErr f entries (false, w)).1.2, (rangeErr f entries (false, w)).2) =
      writeAll fails (entries.flatMap (fun e => lines e.1 e.2)) w := by
    intro entries
    induction entries with
    | nil => intro w; rfl
    | cons e entries ih =>
      intro w
      simp only [rangeErr, hf, List.flatMap_cons, writeAll_append]
      obtain ⟨⟨w', b⟩, h⟩ : ∃ o, writeAll fails (lines e.1 e.2) w = o := ⟨_, rfl⟩
      simp only [Bool.false_eq_true, if_false, h]
      cases b
      · exact ih w'
      · rfl
  cases entries with
  | nil => rfl
  | cons e entries =>
    have hfl : familyLines name desc kind ((e :: entries).flatMap (fun e => lines e.1 e.2)) =
        [helpLine name desc, typeLine name kind] ++ (lines e.1 e.2 ++ entries.flatMap (fun e => lines e.1 e.2)) := by
      simp [familyLines, hne]
    rw [hfl, writeAll_append, ← header_eq]
    simp only [rangeErr, hf, if_true]
    obtain ⟨⟨w', b⟩, h⟩ : ∃ o, header fails name desc kind w = o := ⟨_, rfl⟩
    rw [h]
    cases b
    · simp only [writeAll_append]
      obtain ⟨⟨w'', b⟩, h⟩ : ∃ o, writeAll fails (lines e.1 e.2) w' = o := ⟨_, rfl⟩
      simp only [h]
      cases b
      · exact rest entries w''
      · rfl
    · rfl

/-- C106: counters and gauges print their two comment lines once and then one sample per series, and nothing at all without series;
at the first failing write they stop with an error. -/
theorem C106_series (fails : Nat → Bool) (name desc kind : Str) (entries : List (Str × Str)) (w : W) :
    printSeries fails name desc kind entries w = writeAll fails (familyLines name desc kind (entries.map (fun e => sampleLine name e.1 e.2))) w := by
  have := range_family fails name desc kind (fun l v => [sampleLine name l v]) (by simp) entries w
    (fun l v (st : Bool × W) =>
      match (if st.1 then header fails name desc kind st.2 else (st.2, false)) with
      | (w, true) => ((false, w), true)
      | (w, false) => ((false, (fprintf fails w (sampleLine name l v)).1), (fprintf fails w (sampleLine name l v)).2)) (by
        intro l v st
        have one : ∀ w, writeAll fails [sampleLine name l v] w = fprintf fails w (sampleLine name l v) := by
          intro w
          simp only [writeAll]
          obtain ⟨⟨w', b⟩, h⟩ : ∃ o, fprintf fails w (sampleLine name l v) = o := ⟨_, rfl⟩
          rw [h]; cases b <;> rfl
        simp only [one])
  have hfm : entries.flatMap (fun e => [sampleLine name e.1 e.2]) = entries.map (fun e => sampleLine name e.1 e.2) := by
    clear this
    induction entries with
    | nil => rfl
    | cons e es ih => simp [List.flatMap_cons, ih]
  rw [hfm] at this
  exact this

/-- C106: likewise a histogram, with the bucket, sum and count lines of each series. -/
theorem C106_histogram {F : Type} (nf : NumFmt F) (fails : Nat → Bool) (name desc : Str) (entries : List (Str × Printed F)) (w : W) :
    printHist nf fails name desc entries w =
      writeAll fails (familyLines name desc (lit "histogram") (entries.flatMap (fun e => histLines nf name e.1 e.2))) w :=
  range_family fails name desc (lit "histogram") (fun l p => histLines nf name l p) (by intro l v; simp [histLines]) entries w _ (fun _ _ _ => rfl)

theorem lookup_perm {m m' : List (Str × Str)} (hp : m.Perm m') (hn : (m.map (·.1)).Nodup) (k : Str) : m.lookup k = m'.lookup k := by
  induction hp with
  | nil => rfl
  | cons x _ ih =>
    have := ih (List.nodup_cons.mp (by simpa using hn)).2
    simp only [List.lookup, this]
  | swap x y l =>
    have hxy : x.1 ≠ y.1 := by
      intro h
      simp [h] at hn
    obtain ⟨x, xv⟩ := x
    obtain ⟨y, yv⟩ := y
    simp only [List.lookup_cons]
    by_cases hx : k = x
    · by_cases hy : k = y
      · exact absurd (hx.symm.trans hy) hxy
      · have hb : (k == y) = false := by simpa using hy
        rw [hb]
    · have hb : (k == x) = false := by simpa using hx
      by_cases hy : k = y
      · rw [hb]
      · rw [hb]
  | trans h1 _ ih1 ih2 => exact (ih1 hn).trans (ih2 ((h1.map _).nodup_iff.mp hn))

/-- C106: a custom metric prints its entries sorted by key, so the text does not depend on the map's iteration order. -/
theorem C106_custom_order (fails : Nat → Bool) (name desc kind : Str) (m m' : List (Str × Str)) (w : W) (hp : m.Perm m') (hn : (m.map (·.1)).Nodup) :
    printCustom fails name desc kind m w = printCustom fails name desc kind m' w := by
  have hlen := hp.length_eq
  have hkeys : (m.map (·.1)).mergeSort (fun a b => decide (a ≤ b)) = (m'.map (·.1)).mergeSort (fun a b => decide (a ≤ b)) := by
    have hpk : (m.map (·.1)).Perm (m'.map (·.1)) := hp.map _
    have p1 := List.mergeSort_perm (m.map (·.1)) (fun a b => decide (a ≤ b))
    have p2 := List.mergeSort_perm (m'.map (·.1)) (fun a b => decide (a ≤ b))
    have s1 : ((m.map (·.1)).mergeSort (fun a b => decide (a ≤ b))).Pairwise (· ≤ ·) := by
      have := List.pairwise_mergeSort (le := fun a b : Str => decide (a ≤ b)) (by simpa using fun a b c => List.le_trans) (by simpa using fun a b => List.le_total a b) (m.map (·.1))
      simpa using this
    have s2 : ((m'.map (·.1)).mergeSort (fun a b => decide (a ≤ b))).Pairwise (· ≤ ·) := by
      have := List.pairwise_mergeSort (le := fun a b : Str => decide (a ≤ b)) (by simpa using fun a b c => List.le_trans) (by simpa using fun a b => List.le_total a b) (m'.map (·.1))
      simpa using this
    exact List.Perm.eq_of_pairwise (fun a b _ _ h1 h2 => List.le_antisymm h1 h2) s1 s2 ((p1.trans hpk).trans p2.symm)
  have hlook : ∀ k, m.lookup k = m'.lookup k := by
    intro k
    exact lookup_perm hp hn k
  simp only [printCustom, hlen, hkeys, hlook]

/-- C106: and they are its entries, each once, in key order, below the two comments. -/
theorem C106_custom (fails : Nat → Bool) (name desc kind : Str) (m : List (Str × Str)) (w : W) (hn : (m.map (·.1)).Nodup) :
    ∃ m' : List (Str × Str), m'.Perm m ∧ (m'.map (·.1)).Pairwise (· ≤ ·) ∧
      printCustom fails name desc kind m w = writeAll fails (familyLines name desc kind (m'.map (fun e => e.1 ++ lit " " ++ e.2 ++ lit "\n"))) w := by
  let le : Str × Str → Str × Str → Bool := fun a b => decide (a.1 ≤ b.1)
  have hperm := List.mergeSort_perm m le
  have hs : ((m.mergeSort le).map (·.1)).Pairwise (· ≤ ·) := by
    have := List.pairwise_mergeSort (le := le) (by intro a b c; simpa [le] using List.le_trans) (by intro a b; simpa [le] using List.le_total a.1 b.1) m
    rw [List.pairwise_map]
    simpa [le] using this
  refine ⟨m.mergeSort le, hperm, hs, ?_⟩
  have hn' : ((m.mergeSort le).map (·.1)).Nodup := (hperm.map _).nodup_iff.mpr hn
  rw [← C106_custom_order fails name desc kind _ m w hperm hn']
  generalize m.mergeSort le = m' at hs hn'
  have hsort : (m'.map (·.1)).mergeSort (fun a b => decide (a ≤ b)) = m'.map (·.1) := by
    apply List.mergeSort_of_pairwise
    simpa using hs
  have hmap : (m'.map (·.1)).map (fun k => k ++ lit " " ++ (m'.lookup k).getD [] ++ lit "\n") = m'.map (fun e => e.1 ++ lit " " ++ e.2 ++ lit "\n") := by
    rw [List.map_map]
    apply List.map_congr_left
    intro e he
    have : m'.lookup e.1 = some e.2 := by
      clear hs hsort hperm
      induction m' with
      | nil => cases he
      | cons x l ih =>
        obtain ⟨xk, xv⟩ := x
        rw [List.map_cons, List.nodup_cons] at hn'
        rw [List.lookup_cons]
        rcases List.mem_cons.mp he with h | h
        · subst h; simp
        · have : e.1 ≠ xk := by
            intro hx
            exact hn'.1 (List.mem_map.mpr ⟨e, h, hx⟩)
          have hb : (e.1 == xk) = false := by simpa using this
          rw [hb]
          exact ih hn'.2 h
    simp [this]
  simp only [printCustom, hsort, hmap]
  cases m' with
  | nil => rfl
  | cons x l =>
    have : familyLines name desc kind (List.map (fun e => e.1 ++ lit " " ++ e.2 ++ lit "\n") (x :: l)) =
        [helpLine name desc, typeLine name kind] ++ List.map (fun e => e.1 ++ lit " " ++ e.2 ++ lit "\n") (x :: l) := by
      simp [familyLines]
    rw [this, writeAll_append, ← header_eq]
    rfl

/-- C106: what reaches the client is the lines in order, up to the first failing write, and the error says whether one failed. -/
theorem C106_prefix (fails : Nat → Bool) (lines : List Str) (w : W) :
    ∃ n, n ≤ lines.length ∧ (writeAll fails lines w).1.out = w.out ++ lines.take n ∧
      (∀ i, i < n → fails (w.calls + i) = false) ∧
      ((writeAll fails lines w).2 = true ↔ n < lines.length) ∧ (n < lines.length → fails (w.calls + n) = true) := by
  induction lines generalizing w with
  | nil => exact ⟨0, Nat.le_refl _, by simp [writeAll], by simp, by simp [writeAll], by simp⟩
  | cons l ls ih =>
    by_cases h : fails w.calls = true
    · refine ⟨0, Nat.zero_le _, ?_, by simp, ?_, ?_⟩ <;> simp [writeAll, fprintf, h]
    · have h : fails w.calls = false := by simpa using h
      obtain ⟨n, h1, h2, h3, h4, h5⟩ := ih { out := w.out ++ [l], calls := w.calls + 1, status := some (w.status.getD 200) }
      have heq : writeAll fails (l :: ls) w = writeAll fails ls { out := w.out ++ [l], calls := w.calls + 1, status := some (w.status.getD 200) } := by
        simp [writeAll, fprintf, h]
      rw [heq]
      refine ⟨n + 1, by simpa using h1, by rw [h2]; simp, ?_, ?_, ?_⟩
      · intro i hi
        cases i with
        | zero => exact h
        | succ i => have := h3 i (by omega); simpa [Nat.add_assoc, Nat.add_comm 1 i] using this
      · rw [h4]; simp
      · intro hn
        have := h5 (by simpa using hn)
        simpa [Nat.add_assoc, Nat.add_comm 1 n] using this

example : (printSeries (fun _ => false) (lit "hits") (lit "all hits") (lit "gauge") [(lit "a=\"1\"", lit "2"), ([], lit "3")] W.start).1.out =
    [lit "# HELP hits all hits\n", lit "# TYPE hits gauge\n", lit "hits{a=\"1\"} 2\n", lit "hits 3\n"] := by decide

example : (printSeries (fun n => n == 2) (lit "hits") (lit "all hits") (lit "gauge") [(lit "a=\"1\"", lit "2"), ([], lit "3")] W.start) =
    (⟨[lit "# HELP hits all hits\n", lit "# TYPE hits gauge\n"], 3, some 200⟩, true) := by decide

/-- A histogram of one bound. -/
example : (printHist ⟨fmtNat, fmtNat, fmtNat⟩ (fun _ => false) (lit "t") (lit "time") [(lit "p=\"/\"", ⟨[(5, 2)], 3, 17, 3⟩)] W.start).1.out =
    [lit "# HELP t time\n", lit "# TYPE t histogram\n", lit "t_bucket{p=\"/\",le=\"5\"} 2\n", lit "t_bucket{p=\"/\",le=\"+Inf\"} 3\n", lit "t_sum{p=\"/\"} 17\n", lit "t_count{p=\"/\"} 3\n"] := by decide +kernel

/-- The same in any order of the map. -/
example : printCustom (fun _ => false) (lit "c") (lit "d") (lit "gauge") [(lit "b", lit "2"), (lit "a", lit "1")] W.start = printCustom (fun _ => false) (lit "c") (lit "d") (lit "gauge") [(lit "a", lit "1"), (lit "b", lit "2")] W.start :=
  C106_custom_order _ _ _ _ _ _ _ (List.Perm.swap _ _ _) (by decide)

/-! ### C107 -/

theorem writeAll_status (fails : Nat → Bool) (lines : List Str) (w : W) (h : w.status = none ∨ w.status = some 200) :
    (writeAll fails lines w).1.status = (if lines = [] then w.status else some 200) ∧ (lines = [] → (writeAll fails lines w).2 = false) := by
  induction lines generalizing w with
  | nil => exact ⟨rfl, fun _ => rfl⟩
  | cons l ls ih =>
    have hg : w.status.getD 200 = 200 := by rcases h with h | h <;> simp [h]
    refine ⟨?_, by simp⟩
    by_cases hf : fails w.calls = true
    · simp [writeAll, fprintf, hf, hg]
    · have hf : fails w.calls = false := by simpa using hf
      have := (ih { out := w.out ++ [l], calls := w.calls + 1, status := some (w.status.getD 200) } (Or.inr (by simp [hg]))).1
      simp only [writeAll, fprintf, hf, Bool.false_eq_true, if_false]
      rw [this]
      split <;> simp [hg]

/-- Every metric of this package only writes lines. -/
theorem Builtin.writes {fails : Nat → Bool} {m : Metric} (h : Builtin fails m) (name : Str) (w : W) :
    ∃ lines, m name w = writeAll fails lines w := by
  cases h with
  | series desc kind entries => exact ⟨_, C106_series fails name desc kind entries w⟩
  | hist nf desc entries => exact ⟨_, C106_histogram nf fails name desc entries w⟩
  | custom desc kind m =>
    by_cases hm : m.length = 0
    · exact ⟨[], by simp [printCustom, hm, writeAll]⟩
    · simp only [printCustom, hm, if_false, header_eq]
      refine ⟨[helpLine name desc, typeLine name kind] ++ (((m.map (·.1)).mergeSort (fun a b => decide (a ≤ b))).map (fun k => k ++ lit " " ++ (m.lookup k).getD [] ++ lit "\n")), ?_⟩
      rw [writeAll_append]
      rfl

theorem scrape_builtin (fails : Nat → Bool) (ms : List (Str × Metric)) (hb : ∀ m ∈ ms, Builtin fails m.2) (w : W) (hw : w.status = none ∨ w.status = some 200) :
    ((rangeErr (fun name (m : Metric) w => m name w) ms w).1.status = none ∨ (rangeErr (fun name (m : Metric) w => m name w) ms w).1.status = some 200) ∧
      ((rangeErr (fun name (m : Metric) w => m name w) ms w).2 = true → (rangeErr (fun name (m : Metric) w => m name w) ms w).1.status = some 200) := by
  induction ms generalizing w with
  | nil => exact ⟨hw, fun h => by cases h⟩
  | cons m ms ih =>
    obtain ⟨lines, hl⟩ := (hb m (List.mem_cons_self ..)).writes m.1 w
    have hs := writeAll_status fails lines w hw
    simp only [rangeErr]
    obtain ⟨⟨w', b⟩, h⟩ : ∃ o, writeAll fails lines w = o := ⟨_, rfl⟩
    rw [hl, h]
    rw [h] at hs
    have hw' : w'.status = none ∨ w'.status = some 200 := by
      have := hs.1
      simp only at this
      by_cases hn : lines = []
      · rw [if_pos hn] at this; rw [this]; exact hw
      · rw [if_neg hn] at this; exact Or.inr this
    cases b
    · exact ih (fun x hx => hb x (List.mem_cons_of_mem _ hx)) w' hw'
    · refine ⟨hw', fun _ => ?_⟩
      have hne : lines ≠ [] := fun hn => by simpa using hs.2 hn
      have := hs.1
      rwa [if_neg hne] at this

/-- C107 (violated): whatever fails and whatever metrics of this package are registered, a scrape answers 200: `WriteHeader(500)` comes
after the first `Write`, when the status has gone out. -/
theorem C107_never_500_violated (fails : Nat → Bool) (ms : List (Str × Metric)) (hb : ∀ m ∈ ms, Builtin fails m.2) :
    (scrape ms W.start).final = 200 := by
  have h := scrape_builtin fails ms hb W.start (Or.inl rfl)
  simp only [scrape]
  obtain ⟨⟨w', b⟩, hr⟩ : ∃ o, rangeErr (fun name (m : Metric) w => m name w) ms W.start = o := ⟨_, rfl⟩
  rw [hr] at h ⊢
  cases b
  · rcases h.1 with h | h <;> simp only at h <;> simp [W.final, h]
  · have := h.2 rfl
    simp only at this
    simp [W.final, W.writeHeader, this]

/-- C107 (violated): two gauges, the fourth write fails: a truncated page answered 200. -/
theorem C107_truncated_200_violated :
    ∃ (fails : Nat → Bool) (ms : List (Str × Metric)), (∀ m ∈ ms, Builtin fails m.2) ∧ (scrape ms W.start).final = 200 ∧
      (scrape ms W.start).out = [lit "# HELP a x\n", lit "# TYPE a gauge\n", lit "a 1\n"] :=
  ⟨fun n => n == 3, [(lit "a", fun name => printSeries (fun n => n == 3) name (lit "x") (lit "gauge") [([], lit "1")]),
    (lit "b", fun name => printSeries (fun n => n == 3) name (lit "y") (lit "gauge") [([], lit "2")])],
    (fun m hm => by
      rcases List.mem_cons.mp hm with h | h
      · subst h; exact .series _ _ _
      · rcases List.mem_cons.mp h with h | h
        · subst h; exact .series _ _ _
        · cases h), by decide, by decide⟩

/-- C107: the 500 does reach the client when a metric fails before anything was written, and the metrics after a failing one are not
asked. -/
theorem C107_early_failure_partial (before after : List (Str × Metric)) (name : Str) (m : Metric) (w : W)
    (hq : ∀ x ∈ before, ∀ w, x.2 x.1 w = (w, false)) (hw : w.status = none) (hm : m name w = (w, true)) :
    (scrape (before ++ (name, m) :: after) w).final = 500 ∧ (scrape (before ++ (name, m) :: after) w).out = w.out := by
  have : rangeErr (fun name (m : Metric) w => m name w) (before ++ (name, m) :: after) w = (w, true) := by
    induction before with
    | nil => simp only [List.nil_append, rangeErr, hm]
    | cons x before ih =>
      have hx := hq x (List.mem_cons_self ..) w
      simp only [List.cons_append, rangeErr, hx]
      exact ih (fun y hy => hq y (List.mem_cons_of_mem _ hy))
  simp [scrape, this, W.final, W.writeHeader, hw]

/-- The second of three metrics fails at once, after one that writes nothing. -/
example : let w := scrape [(lit "a", fun _ w => (w, false)), (lit "b", fun _ w => (w, true)), (lit "c", fun name => printSeries (fun _ => false) name (lit "x") (lit "gauge") [([], lit "1")])] W.start
    (w.final, w.out) = (500, []) := by decide +kernel

/-- C107: when no write fails, a scrape of this package's metrics is complete: the output is each metric's own output, one after the
other. -/
theorem C107_complete (ms : List (Str × Metric)) (hb : ∀ m ∈ ms, Builtin (fun _ => false) m.2) (w : W) :
    (scrape ms w).out = w.out ++ ms.flatMap (fun m => (m.2 m.1 W.start).1.out) := by
  have all : ∀ (lines : List Str) (w : W), (writeAll (fun _ => false) lines w).1.out = w.out ++ lines ∧ (writeAll (fun _ => false) lines w).2 = false := by
    intro lines
    induction lines with
    | nil => intro w; simp [writeAll]
    | cons l ls ih =>
      intro w
      have := ih { out := w.out ++ [l], calls := w.calls + 1, status := some (w.status.getD 200) }
      simp only [writeAll, fprintf, Bool.false_eq_true, if_false]
      exact ⟨by rw [this.1]; simp, this.2⟩
  have key : ∀ (ms : List (Str × Metric)), (∀ m ∈ ms, Builtin (fun _ => false) m.2) → ∀ w : W,
      (rangeErr (fun name (m : Metric) w => m name w) ms w).1.out = w.out ++ ms.flatMap (fun m => (m.2 m.1 W.start).1.out) ∧
      (rangeErr (fun name (m : Metric) w => m name w) ms w).2 = false := by
    intro ms
    induction ms with
    | nil => intro _ w; simp [rangeErr]
    | cons m ms ih =>
      intro hb w
      have hm := hb m (List.mem_cons_self ..)
      have : ∃ lines, ∀ w, m.2 m.1 w = writeAll (fun _ => false) lines w := by
        obtain ⟨name, m⟩ := m
        simp only at hm ⊢
        cases hm with
        | series desc kind entries => exact ⟨_, fun w => C106_series _ name desc kind entries w⟩
        | hist nf desc entries => exact ⟨_, fun w => C106_histogram nf _ name desc entries w⟩
        | custom desc kind m =>
          by_cases hz : m.length = 0
          · exact ⟨[], fun w => by simp [printCustom, hz, writeAll]⟩
          · refine ⟨[helpLine name desc, typeLine name kind] ++ (((m.map (·.1)).mergeSort (fun a b => decide (a ≤ b))).map (fun k => k ++ lit " " ++ (m.lookup k).getD [] ++ lit "\n")), fun w => ?_⟩
            simp only [printCustom, hz, if_false, header_eq, writeAll_append]
            rfl
      obtain ⟨lines, hl⟩ := this
      have h1 := all lines w
      have h2 := all lines W.start
      obtain ⟨⟨w', b⟩, h⟩ : ∃ o, writeAll (fun _ => false) lines w = o := ⟨_, rfl⟩
      simp only [rangeErr, hl]
      rw [h] at h1 ⊢
      obtain ⟨h1a, h1b⟩ := h1
      simp only at h1a h1b
      subst h1b
      have := ih (fun x hx => hb x (List.mem_cons_of_mem _ hx)) w'
      simp only
      refine ⟨?_, this.2⟩
      rw [this.1, h1a, List.flatMap_cons, hl, h2.1]
      simp [W.start]
  have := key ms hb w
  simp only [scrape]
  obtain ⟨⟨w', b⟩, h⟩ : ∃ o, rangeErr (fun name (m : Metric) w => m name w) ms w = o := ⟨_, rfl⟩
  rw [h] at this ⊢
  simp only at this
  rw [this.2]
  exact this.1

example : (scrape [(lit "a", fun name => printSeries (fun _ => false) name (lit "x") (lit "gauge") [([], lit "1")]), (lit "b", fun name => printSeries (fun _ => false) name (lit "y") (lit "gauge") [([], lit "2")])] W.start).out =
    [lit "# HELP a x\n", lit "# TYPE a gauge\n", lit "a 1\n", lit "# HELP b y\n", lit "# TYPE b gauge\n", lit "b 2\n"] := by decide +kernel

/-! ### C108 -/

/-- One line: it ends with a newline and has no other. -/
def OneLine (s : Str) : Prop := ∃ t, s = t ++ ['\n'] ∧ '\n' ∉ t

/-- C108 (violated): a newline in the description puts a sample of the author's choosing on the page. -/
theorem C108_desc_injects_violated :
    ∃ desc : Str, (helpLine (lit "hits") desc) = lit "# HELP hits x\nhits 1000000\n" ∧ ¬ OneLine (helpLine (lit "hits") desc) := by
  refine ⟨lit "x\nhits 1000000", by decide, ?_⟩
  rintro ⟨t, h1, h2⟩
  have h3 : helpLine (lit "hits") (lit "x\nhits 1000000") = lit "# HELP hits x\nhits 1000000" ++ ['\n'] := by decide
  rw [h3] at h1
  have := List.append_cancel_right h1
  rw [← this] at h2
  exact h2 (by decide)

/-- C108: a name, description, kind, label text or value without a newline keeps every line of counters and gauges a line of its own. -/
theorem C108_series_partial (fails : Nat → Bool) (name desc kind : Str) (entries : List (Str × Str)) (w : W)
    (hn : '\n' ∉ name) (hd : '\n' ∉ desc) (hk : '\n' ∉ kind) (he : ∀ e ∈ entries, '\n' ∉ e.1 ∧ '\n' ∉ e.2) :
    ∀ l ∈ (printSeries fails name desc kind entries w).1.out, l ∈ w.out ∨ OneLine l := by
  intro l hl
  rw [C106_series] at hl
  obtain ⟨n, -, h2, -⟩ := C106_prefix fails (familyLines name desc kind (entries.map (fun e => sampleLine name e.1 e.2))) w
  rw [h2] at hl
  rcases List.mem_append.mp hl with h | h
  · exact Or.inl h
  · right
    have h := List.mem_of_mem_take h
    have nl : lit "\n" = ['\n'] := by decide
    have sp : '\n' ∉ lit " " := by decide
    simp only [familyLines] at h
    split at h
    · cases h
    · rcases List.mem_cons.mp h with h | h
      · subst h
        refine ⟨lit "# HELP " ++ name ++ lit " " ++ desc, by rw [helpLine, nl], ?_⟩
        have : '\n' ∉ lit "# HELP " := by decide
        simp [List.mem_append, this, hn, hd, sp]
      · rcases List.mem_cons.mp h with h | h
        · subst h
          refine ⟨lit "# TYPE " ++ name ++ lit " " ++ kind, by rw [typeLine, nl], ?_⟩
          have : '\n' ∉ lit "# TYPE " := by decide
          simp [List.mem_append, this, hn, hk, sp]
        · obtain ⟨e, hm, h⟩ := List.mem_map.mp h
          obtain ⟨h1, h2⟩ := he e hm
          subst h
          unfold sampleLine
          split
          · exact ⟨name ++ lit " " ++ e.2, by rw [nl], by simp [List.mem_append, hn, h2, sp]⟩
          · have c1 : '\n' ∉ lit "{" := by decide
            have c2 : '\n' ∉ lit "} " := by decide
            exact ⟨name ++ lit "{" ++ e.1 ++ lit "} " ++ e.2, by rw [nl], by simp [List.mem_append, hn, h1, h2, c1, c2]⟩

theorem hexN_no_newline (w n : Nat) : '\n' ∉ hexN w n := by
  induction w generalizing n with
  | zero => simp [hexN]
  | succ w ih =>
    have hd : ∀ d, d < 16 → hexDigit d ≠ '\n' := by decide
    simp only [hexN, List.mem_append, List.mem_singleton, not_or]
    exact ⟨ih _, fun h => hd _ (Nat.mod_lt _ (by decide)) h.symm⟩

theorem quote_no_newline (isPrint : Char → Bool) (hp : isPrint '\n' = false) (s : GoStr) : '\n' ∉ quote isPrint s := by
  have he : ∀ e : Elt, '\n' ∉ escape isPrint e := by
    intro e
    cases e with
    | bad b _ _ => simp [escape, hexN_no_newline]
    | rune c =>
      simp only [escape]
      split
      · rename_i h
        rcases h with h | h <;> subst h <;> decide
      · split
        · rename_i h
          simp only [List.mem_singleton]
          intro hc
          rw [← hc, hp] at h
          cases h
        · split
          · rename_i e h
            simp only [List.mem_cons, List.not_mem_nil, or_false, not_or]
            refine ⟨by decide, ?_⟩
            intro hc
            subst hc
            simp only [namedEscape] at h
            repeat' split at h
            all_goals first | (cases h) | (exact absurd h (by decide))
          · split
            · simp [hexN_no_newline]
            · split <;> simp [hexN_no_newline]
  simp only [quote, List.mem_cons, List.mem_append, List.mem_flatMap, List.not_mem_nil, or_false, not_or]
  exact ⟨by decide, fun ⟨e, _, h⟩ => he e h, by decide⟩

/-- C108: label values never break a line, whatever they contain: the label text of a series has no newline as long as the label names
have none. -/
theorem C108_labels_partial (isPrint : Char → Bool) (hp : isPrint '\n' = false) (names : List Str) (vs : List GoStr) (l : Str)
    (hn : ∀ n ∈ names, '\n' ∉ n) (h : stringify isPrint names vs = .ok l) : '\n' ∉ l := by
  have key : ∀ (names : List Str) (vs : List GoStr), (∀ n ∈ names, '\n' ∉ n) → '\n' ∉ stringifyFrom isPrint names vs := by
    intro names
    induction names with
    | nil => intro vs _; simp [stringifyFrom]
    | cons n ns ih =>
      intro vs hn
      cases vs with
      | nil => simp [stringifyFrom]
      | cons v vs =>
        have := ih vs (fun x hx => hn x (List.mem_cons_of_mem _ hx))
        simp only [stringifyFrom, List.cons_append, List.mem_cons, List.mem_append, not_or]
        exact ⟨by decide, ⟨hn n (List.mem_cons_self ..), by decide, quote_no_newline isPrint hp v⟩, this⟩
  have hk := key names vs hn
  simp only [stringify] at h
  split at h
  · cases h
  · split at h
    · cases h; simp
    · rename_i heq
      rw [heq] at hk
      cases h
      exact fun hm => hk (List.mem_cons_of_mem _ hm)

example : ∃ l, stringify (fun c => decide (32 ≤ c.toNat)) [lit "path"] [(lit "a\nb").map Elt.rune] = .ok l ∧ '\n' ∉ l ∧ l = lit "path=\"a\\nb\"" :=
  ⟨_, rfl, by decide, by decide⟩

end Verif.Prom

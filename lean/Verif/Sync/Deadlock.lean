import Verif.Sync.RaceProps

/-!
# Deadlocks

If every method respects the guards (`check`), and locks a mutex only while it holds none (`solo`), then goroutines never wait for each other for ever: whatever
happened so far, someone can go on, and all calls can be finished, after which every mutex is free.
Callbacks (`OnMiss`, `miss`, filters) are assumed not to use the object that calls them; other theorems say what happens if they do.
-/
set_option autoImplicit false
namespace Verif.Sync.Race

variable {L K : Type} [DecidableEq K]

/-- Nothing is locked while something is held, and nothing waits for a message. -/
def single (h : List K) : Instr L K → Bool
  | .lock _ => h.isEmpty
  | .recv _ => false
  | _ => true

def singles : List K → List (Instr L K) → Prop
  | _, [] => True
  | h, a :: r => single h a = true ∧ singles (next h a) r

/-- Does the method lock one mutex at a time? -/
def solo (h : List K) : Code L K → Option (List K)
  | .nil => some h
  | .i a => if single h a then some (next h a) else none
  | .seq a b => (solo h a).bind (fun h' => solo h' b)
  | .alt a b => if solo h a = solo h b then solo h a else none
  | .many a => if solo h a = some h then some h else none
  | .within k a => if h = [] ∧ a.plain = true ∧ solo [k] a = some [k] then some [] else none

theorem singles_append (r s : List (Instr L K)) : ∀ h : List K, singles h (r ++ s) ↔ singles h r ∧ singles (after h r) s := by
  induction r with
  | nil => intro h; simp [singles, after]
  | cons a r ih =>
    intro h
    have : after h (a :: r) = after (next h a) r := rfl
    simp only [List.cons_append, singles, ih, this, and_assoc]

theorem solo_sound {c : Code L K} {r : List (Instr L K)} (hr : Runs c r) : ∀ h h' : List K, solo h c = some h' → singles h r ∧ after h r = h' := by
  induction hr with
  | nil => intro h h' hc; simp only [solo, Option.some.injEq] at hc; exact ⟨trivial, hc⟩
  | i a =>
    intro h h' hc
    simp only [solo] at hc
    split at hc
    · next ho =>
      simp only [Option.some.injEq] at hc
      exact ⟨⟨ho, trivial⟩, hc⟩
    · cases hc
  | seq _ _ iha ihb =>
    intro h h' hc
    simp only [solo, Option.bind_eq_some_iff] at hc
    obtain ⟨m, h1, h2⟩ := hc
    have ha := iha h m h1
    have hb := ihb m h' h2
    rw [singles_append, after_append, ha.2]
    exact ⟨⟨ha.1, hb.1⟩, hb.2⟩
  | left _ ih =>
    intro h h' hc
    simp only [solo] at hc
    split at hc
    · exact ih h h' hc
    · cases hc
  | right _ ih =>
    intro h h' hc
    simp only [solo] at hc
    split at hc
    · next he => exact ih h h' (he ▸ hc)
    · cases hc
  | stop =>
    intro h h' hc
    simp only [solo] at hc
    split at hc
    · simp only [Option.some.injEq] at hc; exact ⟨trivial, hc⟩
    · cases hc
  | again _ _ iha ihb =>
    intro h h' hc
    have hc' := hc
    simp only [solo] at hc
    split at hc
    · next he =>
      have ha := iha h h he
      have hb := ihb h h' hc'
      rw [singles_append, after_append, ha.2]
      exact ⟨⟨ha.1, hb.1⟩, hb.2⟩
    · cases hc
  | @within k a p r hra hpr ih =>
    intro h h' hc
    simp only [solo] at hc
    split at hc
    · next he =>
      obtain ⟨hk, hp, hch⟩ := he
      simp only [Option.some.injEq] at hc
      subst hk
      have hs := (ih _ _ hch).1
      obtain ⟨t, ht⟩ := hpr
      rw [← ht, singles_append] at hs
      have hpre := plain_after hra hp p ⟨t, ht⟩ [k]
      constructor
      · show single [] (.lock k : Instr L K) = true ∧ singles [k] (p ++ [.unlock k])
        refine ⟨rfl, ?_⟩
        rw [singles_append, hpre]
        exact ⟨hs.1, rfl, trivial⟩
      · show after [k] (p ++ [.unlock k]) = h'
        rw [after_append, hpre, ← hc]
        simp [after, next]
    · cases hc

/-- The methods of an object that lock one mutex at a time, and respect the guards. -/
structure Tidy (G : L → Guard K) (M : Code L K → Prop) : Prop where
  guarded : ∀ c, M c → check G [] c = some []
  solo : ∀ c, M c → solo [] c = some []

theorem calls_single {M : Code L K → Prop} (hM : ∀ c, M c → solo [] c = some []) {r : List (Instr L K)} (hr : Calls M r) : singles ([] : List K) r ∧ after ([] : List K) r = [] := by
  induction hr with
  | nil => exact ⟨trivial, rfl⟩
  | call hm hrun _ ih =>
    have hc := solo_sound hrun [] [] (hM _ hm)
    rw [singles_append, after_append, hc.2]
    exact ⟨⟨hc.1, ih.1⟩, ih.2⟩

/-- Goroutine `g` is to make the accesses `prog g`; this is how far they are. -/
structure Run (M : Code L K → Prop) (prog : Nat → List (Instr L K)) (tr : Trace L K) : Prop where
  valid : Valid tr
  calls : ∀ g, Calls M (prog g)
  so_far : ∀ g, proj g tr <+: prog g

theorem Run.exec {M : Code L K → Prop} {prog : Nat → List (Instr L K)} {tr : Trace L K} (h : Run M prog tr) : Exec M tr := ⟨h.valid, fun g => ⟨_, h.calls g, h.so_far g⟩⟩

/-- As long as a goroutine has something to do, someone can go on. -/
theorem progress (G : L → Guard K) {M : Code L K → Prop} (hM : Tidy G M) {prog : Nat → List (Instr L K)} {tr : Trace L K} (h : Run M prog tr) (g : Nat) (hg : proj g tr ≠ prog g) :
    ∃ e, Run M prog (tr ++ [e]) := by
  have hs : ∀ g, safe G [] (proj g tr) := fun g => safe_prefix G (h.so_far g) (calls_safe G hM.guarded (h.calls g)).1
  have hown := owner_iff G h.valid hs
  -- the next access of a goroutine that is not finished
  have nxt : ∀ g, proj g tr ≠ prog g → ∃ a, proj g tr ++ [a] <+: prog g ∧ ok G (after [] (proj g tr)) a = true ∧ single (after [] (proj g tr)) a = true := by
    intro g hg
    obtain ⟨t, ht⟩ := h.so_far g
    cases t with
    | nil => exact absurd (by simpa using ht) hg
    | cons a t =>
      have h1 := (calls_safe G hM.guarded (h.calls g)).1
      have h2 := (calls_single hM.solo (h.calls g)).1
      rw [← ht, safe_append] at h1
      rw [← ht, singles_append] at h2
      exact ⟨a, ⟨t, by rw [← ht]; simp⟩, h1.2.1, h2.2.1⟩
  have go : ∀ g a, proj g tr ++ [a] <+: prog g → allowed tr (g, a) → Run M prog (tr ++ [(g, a)]) := by
    intro g a hp ha
    refine ⟨.snoc h.valid ha, h.calls, fun g' => ?_⟩
    rw [proj_snoc]
    by_cases hgg : g = g'
    · subst hgg; rw [if_pos rfl]; exact hp
    · rw [if_neg hgg]; exact h.so_far g'
  have free : ∀ g, proj g tr ≠ prog g → (∀ a, proj g tr ++ [a] <+: prog g → ∀ k, a = .lock k → owners tr k = none) → ∃ e, Run M prog (tr ++ [e]) := by
    intro g hg hl
    obtain ⟨a, hp, ho, hsi⟩ := nxt g hg
    refine ⟨(g, a), go g a hp ?_⟩
    cases a with
    | lock k => exact hl _ hp k rfl
    | unlock k =>
      simp only [ok, decide_eq_true_eq] at ho
      show owners tr k ≠ none
      rw [(hown k g).2 ho]
      simp
    | recv ch => simp [single] at hsi
    | _ => trivial
  by_cases hb : ∀ a, proj g tr ++ [a] <+: prog g → ∀ k, a = .lock k → owners tr k = none
  · exact free g hg hb
  · -- it waits for a mutex: whoever holds that waits for none
    have : ∃ k, owners tr k ≠ none := by
      refine Classical.byContradiction fun hn => hb ?_
      intro a _ k _
      exact Classical.byContradiction fun hne => hn ⟨k, hne⟩
    obtain ⟨k, hk⟩ := this
    obtain ⟨g', hg'⟩ : ∃ g', owners tr k = some g' := by
      cases hx : owners tr k with
      | none => exact absurd hx hk
      | some g' => exact ⟨g', rfl⟩
    have hheld := (hown k g').1 hg'
    have hun : proj g' tr ≠ prog g' := by
      intro he
      rw [he, (calls_safe G hM.guarded (h.calls g')).2] at hheld
      cases hheld
    refine free g' hun ?_
    intro a hp k' ha
    obtain ⟨a', hp', _, hsi⟩ := nxt g' hun
    obtain ⟨t, ht⟩ := hp
    obtain ⟨t', ht'⟩ := hp'
    have : a = a' := by
      have := ht.trans ht'.symm
      rw [List.append_assoc, List.append_assoc] at this
      have := List.append_cancel_left this
      simp only [List.cons_append, List.cons.injEq] at this
      exact this.1
    subst this
    subst ha
    simp only [single, List.isEmpty_iff] at hsi
    rw [hsi] at hheld
    cases hheld

theorem sum_lt {l : List Nat} {f f' : Nat → Nat} (h : ∀ x ∈ l, f x ≤ f' x) (hx : ∃ x ∈ l, f x < f' x) : (l.map f).sum < (l.map f').sum := by
  induction l with
  | nil => obtain ⟨x, h, _⟩ := hx; cases h
  | cons a l ih =>
    simp only [List.map_cons, List.sum_cons]
    have hle : (l.map f).sum ≤ (l.map f').sum := by
      clear hx ih
      have h' : ∀ x ∈ l, f x ≤ f' x := fun x hx => h x (List.mem_cons_of_mem _ hx)
      clear h
      induction l with
      | nil => simp
      | cons b l ih =>
        simp only [List.map_cons, List.sum_cons]
        have := h' b (by simp)
        have := ih (fun x hx => h' x (List.mem_cons_of_mem _ hx))
        omega
    obtain ⟨x, hm, hlt⟩ := hx
    rcases List.mem_cons.1 hm with rfl | hm
    · omega
    · have := ih (fun x hx => h x (List.mem_cons_of_mem _ hx)) ⟨x, hm, hlt⟩
      have := h a (by simp)
      omega

/-- However far they are, all calls can be finished, and then every mutex is free. -/
theorem finishes (G : L → Guard K) {M : Code L K → Prop} (hM : Tidy G M) {prog : Nat → List (Instr L K)} (N : Nat) (hN : ∀ g, N ≤ g → prog g = []) {tr : Trace L K} (h : Run M prog tr) :
    ∃ more, Run M prog (tr ++ more) ∧ (∀ g, proj g (tr ++ more) = prog g) ∧ ∀ k, owners (tr ++ more) k = none := by
  generalize hm : ((List.range N).map (fun g => (prog g).length - (proj g tr).length)).sum = m
  induction m using Nat.strongRecOn generalizing tr with
  | ind m ih =>
    by_cases hd : ∀ g, proj g tr = prog g
    · refine ⟨[], by simpa using h, by simpa using hd, fun k => ?_⟩
      rw [List.append_nil]
      cases hx : owners tr k with
      | none => rfl
      | some g =>
        have hs : ∀ g, safe G [] (proj g tr) := fun g => safe_prefix G (h.so_far g) (calls_safe G hM.guarded (h.calls g)).1
        have := (owner_iff G h.valid hs k g).1 hx
        rw [hd g, (calls_safe G hM.guarded (h.calls g)).2] at this
        cases this
    · obtain ⟨g, hg⟩ := Classical.not_forall.1 hd
      obtain ⟨e, he⟩ := progress G hM h g hg
      have hlen : ∀ g, (proj g (tr ++ [e])).length ≤ (prog g).length := fun g => (he.so_far g).length_le
      have hlt : ((List.range N).map (fun g => (prog g).length - (proj g (tr ++ [e])).length)).sum < m := by
        rw [← hm]
        refine sum_lt ?_ ⟨e.1, ?_, ?_⟩
        · intro x _
          rw [proj_snoc]
          split
          · simp; omega
          · exact Nat.le_refl _
        · rw [List.mem_range]
          rcases Nat.lt_or_ge e.1 N with h' | h'
          · exact h'
          · have := hlen e.1
            rw [hN _ h', proj_snoc, if_pos rfl] at this
            simp at this
        · have := hlen e.1
          rw [proj_snoc, if_pos rfl] at this ⊢
          simp only [List.length_append, List.length_cons, List.length_nil] at this ⊢
          omega
      obtain ⟨more, h1, h2, h3⟩ := ih _ hlt he rfl
      refine ⟨e :: more, ?_, ?_, ?_⟩
      · simpa using h1
      · simpa using h2
      · simpa using h3

/-! ### C171 -/

theorem lru_tidy : Tidy (lruGuard ()) lruCache := by
  constructor <;> intro c hc <;> simp only [lruCache, List.mem_cons, List.not_mem_nil, or_false] at hc <;> rcases hc with rfl | rfl | rfl <;> decide

theorem mem_tidy : Tidy memGuard mem := by
  constructor <;> intro c hc <;> simp only [mem, List.mem_cons, List.not_mem_nil, or_false] at hc <;> rcases hc with rfl | rfl <;> decide

theorem requests_tidy : Tidy reqGuard requests := by
  constructor <;> rintro c (rfl | ⟨e, rfl⟩)
  · decide
  · simp [request, opt, rd, wr, block, lruGet, heapOps, Code.map, Instr.map, check, ok, next, reqGuard, lruGuard, Code.plain]
  · decide
  · simp [request, opt, rd, wr, block, lruGet, heapOps, Code.map, Instr.map, solo, single, next, Code.plain]

theorem kv_tidy : Tidy kvGuard kv := by
  constructor <;> rintro c (hc | ⟨r, rfl⟩)
  · simp only [List.mem_cons, List.not_mem_nil, or_false] at hc
    rcases hc with rfl | rfl <;> decide
  · simp [opt, rd, block, check, ok, next, kvGuard, Code.plain]
  · simp only [List.mem_cons, List.not_mem_nil, or_false] at hc
    rcases hc with rfl | rfl <;> decide
  · simp [opt, rd, block, solo, single, next, Code.plain]

/-- All of `utils/prom`, but for `Print` of a counter. -/
def prom (c : Code PromLoc PromLock) : Prop := registry c ∨ histogram c ∨ gauges c ∨ ∃ s, c = count s

theorem prom_tidy : Tidy promGuard prom := by
  constructor <;> rintro c (hc | ⟨s, rfl | rfl⟩ | (rfl | ⟨s, rfl | rfl⟩) | ⟨s, rfl⟩)
  · simp only [registry, List.mem_cons, List.not_mem_nil, or_false] at hc
    rcases hc with rfl | rfl <;> decide
  all_goals first
    | (simp [observe, histPrint, count, opt, rd, wr, atm, block, check, ok, next, promGuard, Code.plain]; done)
    | (simp [observe, histPrint, count, opt, rd, wr, atm, block, solo, single, next, Code.plain]; done)
    | (simp only [registry, List.mem_cons, List.not_mem_nil, or_false] at hc
       rcases hc with rfl | rfl <;> decide)

/-- C171: goroutines that use a cache, a request cache, a store, or metrics, never wait for each other for ever: whatever they are to do, and however far they are, someone
can go on as long as there is something to do; and all can finish, with every mutex free. -/
theorem C171_caches_partial (prog : Nat → List (Instr LruLoc Unit)) (prog' : Nat → List (Instr MemLoc Unit)) (prog'' : Nat → List (Instr ReqLoc ReqLock)) (N : Nat)
    (hN : ∀ g, N ≤ g → prog g = [] ∧ prog' g = [] ∧ prog'' g = []) :
    (∀ tr, Run lruCache prog tr → (∀ g, proj g tr ≠ prog g → ∃ e, Run lruCache prog (tr ++ [e])) ∧
      ∃ more, Run lruCache prog (tr ++ more) ∧ (∀ g, proj g (tr ++ more) = prog g) ∧ ∀ k, owners (tr ++ more) k = none) ∧
    (∀ tr, Run mem prog' tr → (∀ g, proj g tr ≠ prog' g → ∃ e, Run mem prog' (tr ++ [e])) ∧
      ∃ more, Run mem prog' (tr ++ more) ∧ (∀ g, proj g (tr ++ more) = prog' g) ∧ ∀ k, owners (tr ++ more) k = none) ∧
    (∀ tr, Run requests prog'' tr → (∀ g, proj g tr ≠ prog'' g → ∃ e, Run requests prog'' (tr ++ [e])) ∧
      ∃ more, Run requests prog'' (tr ++ more) ∧ (∀ g, proj g (tr ++ more) = prog'' g) ∧ ∀ k, owners (tr ++ more) k = none) :=
  ⟨fun _ h => ⟨progress _ lru_tidy h, finishes _ lru_tidy N (fun g hg => (hN g hg).1) h⟩,
   fun _ h => ⟨progress _ mem_tidy h, finishes _ mem_tidy N (fun g hg => (hN g hg).2.1) h⟩,
   fun _ h => ⟨progress _ requests_tidy h, finishes _ requests_tidy N (fun g hg => (hN g hg).2.2) h⟩⟩

/-- C171: the same of the store and of metrics. -/
theorem C171_store_metrics (prog : Nat → List (Instr KvLoc Unit)) (prog' : Nat → List (Instr PromLoc PromLock)) (N : Nat) (hN : ∀ g, N ≤ g → prog g = [] ∧ prog' g = []) :
    (∀ tr, Run kv prog tr → (∀ g, proj g tr ≠ prog g → ∃ e, Run kv prog (tr ++ [e])) ∧
      ∃ more, Run kv prog (tr ++ more) ∧ (∀ g, proj g (tr ++ more) = prog g) ∧ ∀ k, owners (tr ++ more) k = none) ∧
    (∀ tr, Run prom prog' tr → (∀ g, proj g tr ≠ prog' g → ∃ e, Run prom prog' (tr ++ [e])) ∧
      ∃ more, Run prom prog' (tr ++ more) ∧ (∀ g, proj g (tr ++ more) = prog' g) ∧ ∀ k, owners (tr ++ more) k = none) :=
  ⟨fun _ h => ⟨progress _ kv_tidy h, finishes _ kv_tidy N (fun g hg => (hN g hg).1) h⟩,
   fun _ h => ⟨progress _ prom_tidy h, finishes _ prom_tidy N (fun g hg => (hN g hg).2) h⟩⟩

/-- Two goroutines that look something up. The first holds the mutex, the second waits for it: it can finish. -/
def twoLookups : Nat → List (Instr MemLoc Unit) := fun g => if g ≤ 1 then [.lock (), .read .m, .unlock ()] else []

example : Run mem twoLookups [(0, .lock ())] ∧
    ∃ more, Run mem twoLookups ([(0, .lock ())] ++ more) ∧ (∀ g, proj g ([(0, .lock ())] ++ more) = twoLookups g) ∧ ∀ k, owners ([(0, .lock ())] ++ more) k = none := by
  have h : Run mem twoLookups [(0, .lock ())] := by
    refine ⟨.snoc (tr := []) .nil rfl, fun g => ?_, fun g => ?_⟩
    · unfold twoLookups
      split
      · have : Calls mem (([.lock ()] ++ [.read .m] ++ [.unlock ()]) ++ []) := .call (c := .within () (block [rd .m, opt (block [rd .miss, opt (wr .m)])])) (by simp [mem])
          (.within (r := ([.read .m] ++ ([] ++ []) : List (Instr MemLoc Unit))) (.seq (.i _) (.seq (.left .nil) .nil)) ⟨[], rfl⟩) .nil
        simpa using this
      · exact .nil
    · by_cases hg : g = 0
      · subst hg; decide
      · have : ¬ (0 = g) := fun h => hg h.symm
        simp [proj, this]
  exact ⟨h, (((C171_caches_partial (fun _ => []) twoLookups (fun _ => []) 2 (fun g hg => ⟨rfl, by simp [twoLookups]; omega, rfl⟩)).2.1) _ h).2⟩

/-! ### callbacks that use caches -/

/-- caches/mem.go L28-42 for two caches, each with its mutex (`MemLoc` of either, by `Bool`): `Get` of cache `a`, whose `miss` calls `Get` of cache `b`, which has the value or not. -/
def getVia (a b : Bool) : Code (Bool × MemLoc) Bool :=
  block [.i (.lock a), rd (a, .m), rd (a, .miss), .i (.lock b), rd (b, .m), .i (.unlock b), wr (a, .m), .i (.unlock a)]

/-- The accesses of that call. -/
def viaRun (a b : Bool) : List (Instr (Bool × MemLoc) Bool) :=
  [.lock a, .read (a, .m), .read (a, .miss), .lock b, .read (b, .m), .unlock b, .write (a, .m), .unlock a]

theorem via_runs (a b : Bool) : Runs (getVia a b) (viaRun a b) :=
  .seq (.i _) (.seq (.i _) (.seq (.i _) (.seq (.i _) (.seq (.i _) (.seq (.i _) (.seq (.i _) (.seq (.i _) .nil)))))))

theorem valid_of [DecidableEq L] (tr : Trace L K) (h : validFrom [] tr = true) : Valid tr := by simpa using validFrom_ok tr [] .nil h

theorem one_call {M : Code L K → Prop} {c : Code L K} {r : List (Instr L K)} (hm : M c) (hr : Runs c r) : Calls M r := by simpa using Calls.call hm hr Calls.nil

/-- A goroutine that waits for a mutex that is locked makes no step. -/
theorem stuck {M : Code L K → Prop} {prog : Nat → List (Instr L K)} {tr : Trace L K} (h : ∀ g, proj g tr = prog g ∨ ∃ k t, prog g = proj g tr ++ .lock k :: t ∧ owners tr k ≠ none)
    (e : Nat × Instr L K) : ¬ Run M prog (tr ++ [e]) := by
  intro hr
  have hp := hr.so_far e.1
  rw [proj_snoc, if_pos rfl] at hp
  rcases h e.1 with h | ⟨k, t, h1, h2⟩
  · rw [h] at hp
    have := hp.length_le
    simp only [List.length_append, List.length_cons, List.length_nil] at this
    omega
  · rw [h1] at hp
    have := (List.prefix_append_right_inj _).1 hp
    obtain ⟨t', ht'⟩ := this
    simp only [List.cons_append, List.cons.injEq] at ht'
    have hv := hr.valid
    have ha := allowed_at hv (n := tr.length) (e := e) (by simp)
    rw [List.take_left] at ha
    obtain ⟨g, a⟩ := e
    simp only at ht'
    rw [ht'.1] at ha
    exact h2 ha

/-- C171, violated: a cache whose `miss` asks the cache itself, say for another key, waits for ever at the first miss; nothing else is needed. -/
theorem C171_self_violated : ∃ (prog : Nat → List (Instr (Bool × MemLoc) Bool)) (tr : Trace (Bool × MemLoc) Bool),
    Run (· = getVia true true) prog tr ∧ (∀ g, g ≠ 0 → prog g = []) ∧ proj 0 tr ≠ prog 0 ∧ ∀ e, ¬ Run (· = getVia true true) prog (tr ++ [e]) := by
  let prog : Nat → List (Instr (Bool × MemLoc) Bool) := fun g => if g = 0 then viaRun true true else []
  let tr : Trace (Bool × MemLoc) Bool := [(0, .lock true), (0, .read (true, .m)), (0, .read (true, .miss))]
  have hoth : ∀ g, g ≠ 0 → proj g tr = [] := by
    intro g hg
    have : ¬ (0 = g) := fun h => hg h.symm
    simp [tr, proj, this]
  refine ⟨prog, tr, ⟨valid_of _ (by decide), fun g => ?_, fun g => ?_⟩, fun g hg => by simp [prog, hg], by decide, stuck (fun g => ?_)⟩
  · by_cases hg : g = 0
    · subst hg; exact one_call (r := viaRun true true) rfl (via_runs true true)
    · simp only [prog, hg, if_false]; exact .nil
  · by_cases hg : g = 0
    · subst hg; decide
    · rw [hoth g hg]; exact List.nil_prefix
  · by_cases hg : g = 0
    · subst hg
      exact .inr ⟨true, [.read (true, .m), .unlock true, .write (true, .m), .unlock true], rfl, by decide⟩
    · exact .inl (by rw [hoth g hg]; simp [prog, hg])

/-- C171, violated: two caches whose `miss` ask each other may wait for each other for ever, though each call alone would end. -/
theorem C171_cross_violated : ∃ (prog : Nat → List (Instr (Bool × MemLoc) Bool)) (tr : Trace (Bool × MemLoc) Bool),
    Run (fun c => c = getVia true false ∨ c = getVia false true) prog tr ∧ (∀ g, g > 1 → prog g = []) ∧ proj 0 tr ≠ prog 0 ∧ proj 1 tr ≠ prog 1 ∧
      ∀ e, ¬ Run (fun c => c = getVia true false ∨ c = getVia false true) prog (tr ++ [e]) := by
  let prog : Nat → List (Instr (Bool × MemLoc) Bool) := fun g => if g = 0 then viaRun true false else if g = 1 then viaRun false true else []
  let tr : Trace (Bool × MemLoc) Bool := [(0, .lock true), (1, .lock false), (0, .read (true, .m)), (0, .read (true, .miss)), (1, .read (false, .m)), (1, .read (false, .miss))]
  have hoth : ∀ g, g ≠ 0 → g ≠ 1 → proj g tr = [] := by
    intro g hg hg1
    have h0 : ¬ (0 = g) := fun h => hg h.symm
    have h1 : ¬ (1 = g) := fun h => hg1 h.symm
    simp [tr, proj, h0, h1]
  refine ⟨prog, tr, ⟨valid_of _ (by decide), fun g => ?_, fun g => ?_⟩, fun g hg => ?_, by decide, by decide, stuck (fun g => ?_)⟩
  · by_cases hg : g = 0
    · subst hg; exact one_call (r := viaRun true false) (.inl rfl) (via_runs true false)
    · by_cases hg1 : g = 1
      · subst hg1; exact one_call (r := viaRun false true) (.inr rfl) (via_runs false true)
      · simp only [prog, hg, hg1, if_false]; exact .nil
  · by_cases hg : g = 0
    · subst hg; decide
    · by_cases hg1 : g = 1
      · subst hg1; decide
      · rw [hoth g hg hg1]; exact List.nil_prefix
  · have h0 : g ≠ 0 := by omega
    have h1 : g ≠ 1 := by omega
    simp [prog, h0, h1]
  · by_cases hg : g = 0
    · subst hg
      exact .inr ⟨false, [.read (false, .m), .unlock false, .write (true, .m), .unlock true], rfl, by decide⟩
    · by_cases hg1 : g = 1
      · subst hg1
        exact .inr ⟨true, [.read (true, .m), .unlock true, .write (false, .m), .unlock false], rfl, by decide⟩
      · exact .inl (by rw [hoth g hg hg1]; simp [prog, hg, hg1])

end Verif.Sync.Race

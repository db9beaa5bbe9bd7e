import Verif.Test.Helpers
import Verif.Ctx.Props
import Verif.Ctx.ValueProps
import Verif.Ctx.LogProps
/-!
# Contexts for tests (test/ctx.go)

`testing` is modelled as far as contexts depend on it: a tester has a name, is a `*testing.T` or not, and has a list of cleanup functions, which run in the reverse of the order in which they were
registered when the test has finished. What a cleanup function does is to cancel a context, or something that does not matter here. Contexts, their cancellation and loggers are those of Ctx/.
-/
set_option autoImplicit false
set_option linter.unusedSectionVars false
namespace Verif.Test.Contexts
open Verif.Ctx

/-- A tester: `*testing.T` or another `testing.TB` (test/ctx.go L45), its deadline (L30), its cleanup functions (`some i` cancels context `i`), latest first (L33, L37). -/
structure Tester where
  name : String
  isT : Bool
  deadline : Option Nat
  clean : List (Option Nat)

/-- Testers, contexts, logger configurations, and the cancel contexts made by `Context`, whose cancel functions nobody else has. test/ctx.go L16-40. -/
structure St where
  testers : List Tester
  world : World
  heap : CHeap
  made : List Nat

/-- The key of test/ctx.go L42: of a type of its own. -/
def testerKey : UKey := .other 0

/-- Registering a cleanup function. Called in test/ctx.go L33, L37. -/
def push (ts : List Tester) (t : Nat) (x : Option Nat) : List Tester := ts.modify t fun r => { r with clean := x :: r.clean }

/-- What `Context` attaches before it makes the context cancellable: tag, tester, and on a terminal the logger. test/ctx.go L18-28. -/
def attach (term : Bool) (quote : String → String) (h : CHeap) (t : Nat) (name : String) : CHeap × Ctx :=
  let c : Ctx := .value testerKey t (.tag "test" (quote name) .background)
  if term then
    let (h, c) := withHelper h c t
    withLogFunc h c t
  else (h, c)

/-- test/ctx.go L16-40 `Context`. -/
def context (term : Bool) (quote : String → String) (s : St) (t : Nat) (r : Tester) : St × Ctx :=
  let (h, c) := attach term quote s.heap t r.name
  let id := s.world.nodes.length
  ({ testers := push s.testers t (some id), world := s.world.create r.deadline c, heap := h, made := id :: s.made }, .cancel id r.deadline c)

/-- test/ctx.go L50-57 `ExtractTester`: only a `*testing.T` is found. -/
def extractTester (ts : List Tester) (c : Option Ctx) : Option Nat :=
  match c with
  | none => none
  | some c =>
    match value (.user testerKey) c with
    | some (.user t) => match ts[t]? with
      | some r => if r.isT then some t else none
      | none => none
    | _ => none

/-- The JSON assertions: the tester of the context gets the verdict; `t.Helper()` on a nil `*testing.T` panics. test/equals.go L60-71, test/strings.go L27-40. -/
def assertJSON (ts : List Tester) (c : Option Ctx) (v : Verdict) : Go (Nat × Verdict) :=
  match extractTester ts c with
  | none => .error .nilDeref
  | some t => .ok (t, v)

/-- Running cleanup functions. -/
def after : List (Option Nat) → World → World
  | [], w => w
  | some i :: l, w => after l (w.cancel i ⟨true, 0⟩)
  | none :: l, w => after l w

/-- A test has finished: its cleanup functions run. Relied on in test/ctx.go L33, L37. -/
def finish (s : St) (t : Nat) : St :=
  { s with world := after ((s.testers[t]?).elim [] (·.clean)) s.world, testers := s.testers.modify t fun r => { r with clean := [] } }

/-- What a test program can do; the label tells which test finishes. test/ctx.go L16-47, ctx/helper.go L8-36. -/
inductive Step (term : Bool) (quote : String → String) : St → Option Nat → St → Prop where
  | context {s : St} (t : Nat) (r : Tester) : s.testers[t]? = some r → Step term quote s none (context term quote s t r).1
  | create {s : St} (dl : Option Nat) (p : Ctx) : Known s.world p → Step term quote s none { s with world := s.world.create dl p }
  | cancel {s : St} (i : Nat) (x : Cancelled) : i < s.world.nodes.length → i ∉ s.made → Step term quote s none { s with world := s.world.cancel i x }
  | cleanup {s : St} (t : Nat) (x : Option Nat) : (∀ i, x = some i → i < s.world.nodes.length ∧ i ∉ s.made) →
      Step term quote s none { s with testers := push s.testers t x }
  | logger {s : St} (h : CHeap) : Step term quote s none { s with heap := h }
  | finish {s : St} (t : Nat) : Step term quote s (some t) (finish s t)

/-- Any number of steps, in which test `t` does not finish. -/
inductive Steps (term : Bool) (quote : String → String) (t : Option Nat) : St → St → Prop where
  | refl {s : St} : Steps term quote t s s
  | tail {s s' s'' : St} {x : Option Nat} : Steps term quote t s s' → Step term quote s' x s'' → (t ≠ none → x ≠ t) → Steps term quote t s s''

/-- The beginning: tests without cleanup functions. -/
def start (ts : List Tester) : St := ⟨ts.map fun r => { r with clean := [] }, ⟨[], fun _ => none⟩, [], []⟩

/-! ### cancellation -/

/-- The cleanup functions of a test. -/
def cleanOf (s : St) (t : Nat) : List (Option Nat) := (s.testers[t]?).elim [] (·.clean)

theorem cleanOf_push (s : St) (t u : Nat) (x : Option Nat) (h : CHeap) (w : World) (m : List Nat) :
    cleanOf ⟨push s.testers t x, w, h, m⟩ u = if t = u ∧ u < s.testers.length then x :: cleanOf s u else cleanOf s u := by
  unfold cleanOf push
  simp only [List.getElem?_modify]
  cases hu : s.testers[u]? with
  | none =>
    have := List.getElem?_eq_none_iff.1 hu
    rw [if_neg (by omega)]; simp
  | some r =>
    have := (List.getElem?_eq_some_iff.1 hu).1
    by_cases htu : t = u
    · simp [htu, this]
    · simp [htu]

theorem cleanOf_clear (s : St) (t u : Nat) (h : CHeap) (w : World) (m : List Nat) :
    cleanOf ⟨s.testers.modify t fun r => { r with clean := [] }, w, h, m⟩ u = if t = u then [] else cleanOf s u := by
  unfold cleanOf
  simp only [List.getElem?_modify]
  cases hu : s.testers[u]? with
  | none => simp
  | some r => by_cases htu : t = u <;> simp [htu]

theorem after_reach : ∀ (l : List (Option Nat)) (w : World) (h : List Nat), w.Reach h → (∀ i, some i ∈ l → i < w.nodes.length) →
    (after l w).Reach ((l.filterMap id).reverse ++ h) ∧ (after l w).nodes = w.nodes
  | [], w, h, hr, _ => ⟨hr, rfl⟩
  | none :: l, w, h, hr, hl => by
    have := after_reach l w h hr fun i hi => hl i (List.mem_cons_of_mem _ hi)
    simpa [after] using this
  | some i :: l, w, h, hr, hl => by
    have := after_reach l (w.cancel i ⟨true, 0⟩) (i :: h) (.cancel i _ hr (hl i (List.mem_cons_self ..))) fun j hj => hl j (List.mem_cons_of_mem _ hj)
    refine ⟨?_, this.2⟩
    simpa [after] using this.1

/-- Cancel functions are of contexts that exist. -/
structure Inv (s : St) : Prop where
  reach : ∃ h, s.world.Reach h
  lt : ∀ t i, some i ∈ cleanOf s t → i < s.world.nodes.length

theorem Known.create {w : World} {dl : Option Nat} {p : Ctx} : ∀ {c : Ctx}, Known w c → Known (w.create dl p) c
  | .background, _ => trivial
  | .value _ _ c, h => Known.create (c := c) h
  | .config _ c, h => Known.create (c := c) h
  | .cancel id d c, h => by
    refine ⟨?_, Known.create (c := c) h.2⟩
    have := (List.getElem?_eq_some_iff.1 h.1).1
    simp only [World.create, List.getElem?_append_left this]
    exact h.1
  | .tag _ _ c, h => Known.create (c := c) h
  | .tracking _ _ c, h => Known.create (c := c) h
  | .detached c, h => Known.create (c := c) h

theorem known_attach (w : World) (term : Bool) (quote : String → String) (h : CHeap) (t : Nat) (n : String) :
    Known w (attach term quote h t n).2 ∧ cancelIds (attach term quote h t n).2 = [] := by
  cases term <;> simp [attach, withHelper, withLogFunc, Known, cancelIds]

theorem length_create (w : World) (dl : Option Nat) (p : Ctx) : (w.create dl p).nodes.length = w.nodes.length + 1 := by simp [World.create]

theorem inv_step {term : Bool} {quote : String → String} {s s' : St} {x : Option Nat} (hs : Step term quote s x s') (h : Inv s) : Inv s' := by
  obtain ⟨⟨hh, hr⟩, hlt⟩ := h
  cases hs with
  | context t r _ =>
    refine ⟨⟨hh, .create _ _ hr (known_attach ..).1⟩, ?_⟩
    intro u i hi
    simp only [context] at hi ⊢
    rw [cleanOf_push] at hi
    rw [length_create]
    split at hi
    · rcases List.mem_cons.1 hi with e | hi
      · cases e; omega
      · have := hlt _ _ hi; omega
    · have := hlt _ _ hi; omega
  | create dl p hk => exact ⟨⟨hh, .create _ _ hr hk⟩, fun u i hi => by rw [length_create]; have := hlt u i hi; omega⟩
  | cancel i x hi _ => exact ⟨⟨_, .cancel i x hr hi⟩, hlt⟩
  | cleanup t x hx =>
    refine ⟨⟨hh, hr⟩, fun u i hi => ?_⟩
    rw [cleanOf_push] at hi
    split at hi
    · rcases List.mem_cons.1 hi with e | hi
      · exact (hx i e.symm).1
      · exact hlt _ _ hi
    · exact hlt _ _ hi
  | logger => exact ⟨⟨hh, hr⟩, hlt⟩
  | finish t =>
    have := after_reach (cleanOf s t) s.world hh hr (hlt t)
    refine ⟨⟨_, this.1⟩, fun u i hi => ?_⟩
    show i < (after (cleanOf s t) s.world).nodes.length
    rw [this.2]
    simp only [finish, cleanOf_clear] at hi
    split at hi
    · cases hi
    · exact hlt _ _ hi

theorem inv_steps {term : Bool} {quote : String → String} {t : Option Nat} {s s' : St} (hs : Steps term quote t s s') (h : Inv s) : Inv s' := by
  induction hs with
  | refl => exact h
  | tail _ h1 _ ih => exact inv_step h1 ih

theorem inv_start (ts : List Tester) : Inv (start ts) := by
  refine ⟨⟨[], .init⟩, fun t i hi => ?_⟩
  simp only [cleanOf, start, List.getElem?_map] at hi
  cases h : ts[t]? <;> simp [h] at hi

/-- While test `t` runs: its cleanup functions are later ones, the one that cancels `i`, and earlier ones. -/
structure Run (t i : Nat) (A : List (Option Nat)) (s : St) : Prop where
  inv : Inv s
  own : i ∈ s.made
  lt : i < s.world.nodes.length
  mine : ∃ B, cleanOf s t = B ++ some i :: A ∧ some i ∉ B
  others : ∀ u, u ≠ t → some i ∉ cleanOf s u
  alive : ∃ h, s.world.Reach h ∧ i ∉ h

theorem run_step {term : Bool} {quote : String → String} {t i : Nat} {A : List (Option Nat)} {s s' : St} {x : Option Nat} (hs : Step term quote s x s') (hx : x ≠ some t)
    (h : Run t i A s) : Run t i A s' := by
  have hinv := inv_step hs h.inv
  obtain ⟨B, hB, hiB⟩ := h.mine
  obtain ⟨hh, hr, hih⟩ := h.alive
  have hlt := h.lt
  cases hs with
  | context u r _ =>
    refine ⟨hinv, List.mem_cons_of_mem _ h.own, by simp only [context]; rw [length_create]; omega, ?_, ?_, ⟨hh, .create _ _ hr (known_attach ..).1, hih⟩⟩
    · simp only [context, cleanOf_push]
      split
      · exact ⟨some _ :: B, by rw [hB]; rfl, by
          simp only [List.mem_cons, Option.some.injEq, not_or]; exact ⟨by omega, hiB⟩⟩
      · exact ⟨B, hB, hiB⟩
    · intro v hv
      simp only [context, cleanOf_push]
      split
      · simp only [List.mem_cons, Option.some.injEq, not_or]; exact ⟨by omega, h.others v hv⟩
      · exact h.others v hv
  | create dl p hk => exact ⟨hinv, h.own, by rw [length_create]; omega, h.mine, h.others, ⟨hh, .create _ _ hr hk, hih⟩⟩
  | cancel j x hj hm =>
    refine ⟨hinv, h.own, hlt, h.mine, h.others, ⟨_, .cancel j x hr hj, ?_⟩⟩
    simp only [List.mem_cons, not_or]
    exact ⟨fun e => hm (e ▸ h.own), hih⟩
  | cleanup u x hx' =>
    have hne : some i ≠ x := fun e => (hx' i e.symm).2 h.own
    refine ⟨hinv, h.own, hlt, ?_, ?_, ⟨hh, hr, hih⟩⟩
    · rw [cleanOf_push]
      split
      · exact ⟨x :: B, by rw [hB]; rfl, by simp only [List.mem_cons, not_or]; exact ⟨hne, hiB⟩⟩
      · exact ⟨B, hB, hiB⟩
    · intro v hv
      rw [cleanOf_push]
      split
      · simp only [List.mem_cons, not_or]; exact ⟨hne, h.others v hv⟩
      · exact h.others v hv
  | logger => exact ⟨hinv, h.own, hlt, h.mine, h.others, h.alive⟩
  | finish u =>
    have hut : u ≠ t := fun e => hx (e ▸ rfl)
    have ha := after_reach (cleanOf s u) s.world hh hr (h.inv.lt u)
    refine ⟨hinv, h.own, ?_, ?_, ?_, ⟨_, ha.1, ?_⟩⟩
    · show i < (after (cleanOf s u) s.world).nodes.length
      rw [ha.2]; exact hlt
    · simp only [finish, cleanOf_clear, if_neg hut]; exact ⟨B, hB, hiB⟩
    · intro v hv
      simp only [finish, cleanOf_clear]
      split
      · simp
      · exact h.others v hv
    · simp only [List.mem_append, List.mem_reverse, List.mem_filterMap, id, exists_eq_right, not_or]
      exact ⟨h.others u hut, hih⟩

theorem run_steps {term : Bool} {quote : String → String} {t i : Nat} {A : List (Option Nat)} {s s' : St} (hs : Steps term quote (some t) s s') (h : Run t i A s) : Run t i A s' := by
  induction hs with
  | refl => exact h
  | tail _ h1 h2 ih => exact run_step h1 (h2 (by simp)) ih

/-- C155: whatever tests and their goroutines do, the context of a test, and each one derived from it without a cancel function of its own or `Detach`, is not cancelled until the test finishes; then it is alive in the
cleanup functions registered after `Context`, cancelled in those registered before, and cancelled in the end. -/
theorem C155_cancelled (term : Bool) (quote : String → String) (ts : List Tester) {s s' : St} (t : Nat) (r : Tester) (hs : Steps term quote none (start ts) s) (ht : s.testers[t]? = some r)
    (hs' : Steps term quote (some t) (context term quote s t r).1 s') (c : Ctx) (hc : Known s'.world c) (hd : cancelIds c = cancelIds (context term quote s t r).2) :
    err s'.world c = none ∧ (∃ B, cleanOf s' t = B ++ some s.world.nodes.length :: r.clean ∧ (∀ P, P <+: B → err (after P s'.world) c = none) ∧
      ∀ P, P <+: r.clean → (err (after (B ++ some s.world.nodes.length :: P) s'.world) c).isSome) ∧ (err (finish s' t).world c).isSome := by
  have hinv := inv_steps hs (inv_start ts)
  have hcl : cleanOf s t = r.clean := by simp [cleanOf, ht]
  have hlen := (List.getElem?_eq_some_iff.1 ht).1
  have h0 : Run t s.world.nodes.length r.clean (context term quote s t r).1 := by
    obtain ⟨hh, hr⟩ := hinv.reach
    refine ⟨inv_step (.context (term := term) (quote := quote) t r ht) hinv, List.mem_cons_self .., by simp only [context]; rw [length_create]; omega, ⟨[], ?_, by simp⟩, ?_,
      ⟨hh, .create _ _ hr (known_attach ..).1, fun hm => absurd ((winv hr).hist _ hm) (by omega)⟩⟩
    · simp only [context, cleanOf_push]; rw [if_pos ⟨trivial, hlen⟩, hcl]; rfl
    · intro u hu
      simp only [context, cleanOf_push]
      rw [if_neg fun h => hu h.1.symm]
      intro hm
      have := hinv.lt _ _ hm; omega
  have h1 := run_steps hs' h0
  obtain ⟨B, hB, hiB⟩ := h1.mine
  obtain ⟨hh, hr, hih⟩ := h1.alive
  have hids : cancelIds c = [s.world.nodes.length] := by
    rw [hd]; simp only [context, cancelIds, (known_attach s.world term quote s.heap t r.name).2]
  have key : ∀ P, (∀ i, some i ∈ P → i < s'.world.nodes.length) → ((err (after P s'.world) c).isSome = true ↔ some s.world.nodes.length ∈ P) := by
    intro P hP
    have ha := after_reach P s'.world hh hr hP
    have hk : Known (after P s'.world) c := by
      have : ∀ c, Known s'.world c → Known (after P s'.world) c := by
        intro c h
        induction c with
        | background => trivial
        | cancel id d c ih => exact ⟨by rw [ha.2]; exact h.1, ih h.2⟩
        | value _ _ c ih => exact ih h
        | config _ c ih => exact ih h
        | tag _ _ c ih => exact ih h
        | tracking _ _ c ih => exact ih h
        | detached c ih => exact ih h
      exact this c hc
    rw [C22_cancelled_iff ha.1 c hk, hids]
    simp [hih]
  have hltP : ∀ P, P <+: cleanOf s' t → ∀ i, some i ∈ P → i < s'.world.nodes.length := fun P hP i hi => h1.inv.lt t i (hP.subset hi)
  have none_of : ∀ {o : Option Cancelled}, ¬ o.isSome = true → o = none := by intro o h; cases o <;> simp_all
  refine ⟨none_of fun h => by simpa using (key [] (by simp)).1 h, ⟨B, hB, ?_, ?_⟩, ?_⟩
  · intro P hP
    exact none_of fun h => hiB (hP.subset ((key P (hltP P (by rw [hB]; exact hP.trans (List.prefix_append ..)))).1 h))
  · intro P hP
    refine (key _ (hltP _ ?_)).2 (by simp)
    rw [hB]
    exact (List.prefix_append_right_inj B).2 (by simpa using hP)
  · exact (key _ (hltP _ (List.prefix_refl _))).2 (by rw [hB]; simp)

/-! ### who gets verdicts and log lines -/

/-- C155: an assertion on a context derived from that of a test, by any calls that attach no other tester, reports to this test, also when the context is cancelled or detached. What is missing: testers that are no `*testing.T`. -/
theorem C155_reports_partial (term : Bool) (quote : String → String) (s : St) (t : Nat) (r : Tester) (ts : List Tester) (r' : Tester) (ht : ts[t]? = some r') (hT : r'.isT = true)
    (ws : List Wrap) (hw : ∀ v, Wrap.value testerKey v ∉ ws) (v : Verdict) : assertJSON ts (some (build quote (context term quote s t r).2 ws)) v = .ok (t, v) := by
  have gen : ∀ (ws : List Wrap) (c : Ctx), (∀ v, Wrap.value testerKey v ∉ ws) → value (.user testerKey) (build quote c ws) = value (.user testerKey) c := by
    intro ws
    induction ws with
    | nil => intro c _; rfl
    | cons w ws ih =>
      intro c h
      have h1 : build quote c (w :: ws) = build quote (w.apply quote c) ws := rfl
      rw [h1, ih _ fun v hv => h v (List.mem_cons_of_mem _ hv)]
      cases w <;> simp only [Wrap.apply, withTracking, value] <;> simp_all [testerKey]
      intro e
      exact absurd rfl ((h _).1 e)
  have hv : value (.user testerKey) (context term quote s t r).2 = some (.user t) := by
    cases term <;> simp [context, attach, withHelper, withLogFunc, value]
  simp only [assertJSON, extractTester, gen ws _ hw, hv, ht, hT, if_true]

/-- C155: of several testers attached to a context the last one counts. -/
theorem C155_last (ts : List Tester) (c : Ctx) (t : Nat) (r : Tester) (ht : ts[t]? = some r) (hT : r.isT = true) (v : Verdict) :
    assertJSON ts (some (.value testerKey t c)) v = .ok (t, v) := by
  simp [assertJSON, extractTester, value, ht, hT]

/-- C155 is violated: `WithTester` takes every `testing.TB`, but with the tester of a benchmark or a fuzz test every JSON assertion panics, also one that holds, and also if a test is attached below; and so it does without a tester. -/
theorem C155_tester_violated (ts : List Tester) (c : Ctx) (t : Nat) (r : Tester) (ht : ts[t]? = some r) (hT : r.isT = false) (v : Verdict) :
    assertJSON ts (some (.value testerKey t c)) v = .error .nilDeref ∧ assertJSON ts none v = .error .nilDeref := by
  simp [assertJSON, extractTester, value, ht, hT]

/-- Where a log line goes, and its text: the log function of a tester (test/ctx.go L24-27), or the default one (ctx/log/log.go L140-148). -/
inductive Line where
  | tester (t : Nat) (text : String)
  | default (text : String)
deriving DecidableEq

/-- `log.Infof` and the like: test/ctx.go L24-27, ctx/log/log.go L63-73, L108-148; `levelText` is `level.String()`. -/
def logLine {P S : Type} (ops : FmtOps P S) (h : CHeap) (c : Option Ctx) (levelText f : String) (args : List (Arg P S)) : Line :=
  match loggerOf h c with
  | some t => .tester t (levelText ++ ": " ++ ops.sprintf f args)
  | none => .default (formatMsg ops (extractTags c) f args).1

/-- C155: on a terminal, what is logged with a context of a test, or one derived from it without another logger, is written by this test; otherwise it goes to the default logger. -/
theorem C155_logs {P S : Type} (ops : FmtOps P S) (term : Bool) (quote : String → String) (s : St) (t : Nat) (r : Tester) (ws : List Wrap) (hw : ∀ p, Wrap.config p ∉ ws)
    (levelText f : String) (args : List (Arg P S)) :
    logLine ops (context term quote s t r).1.heap (some (build quote (context term quote s t r).2 ws)) levelText f args =
      if term then .tester t (levelText ++ ": " ++ ops.sprintf f args)
      else .default (formatMsg ops (extractTags (some (build quote (context term quote s t r).2 ws))) f args).1 := by
  have gen : ∀ (ws : List Wrap) (c : Ctx), (∀ p, Wrap.config p ∉ ws) → value .config (build quote c ws) = value .config c := by
    intro ws
    induction ws with
    | nil => intro c _; rfl
    | cons w ws ih =>
      intro c h
      have h1 : build quote c (w :: ws) = build quote (w.apply quote c) ws := rfl
      rw [h1, ih _ fun v hv => h v (List.mem_cons_of_mem _ hv)]
      cases w <;> simp [Wrap.apply, withTracking, value]
      exact absurd (List.mem_cons_self ..) (h _)
  cases term with
  | false =>
    have : loggerOf (context false quote s t r).1.heap (some (build quote (context false quote s t r).2 ws)) = none := by
      simp [loggerOf, extractConfig, configPtr, gen ws _ hw, context, attach, value]
    simp only [logLine, this]; rfl
  | true =>
    have : loggerOf (context true quote s t r).1.heap (some (build quote (context true quote s t r).2 ws)) = some t := by
      simp [loggerOf, extractConfig, configPtr, gen ws _ hw, context, attach, withHelper, withLogFunc, value]
    simp only [logLine, this]; rfl

/-- `fmt.Sprintf` with "%s", for strings. -/
def plainOps : FmtOps String Unit := ⟨fun _ as => String.join (as.map fun | .plain p => p | .redacted c => c | _ => ""), fun _ => none, "***", fun _ => ""⟩

/-- C155 is violated: the log function of a test formats its arguments as they are, so a redacted text is written on a terminal, but not otherwise. -/
theorem C155_redacted_violated (quote : String → String) (s : St) (t : Nat) (r : Tester) :
    logLine plainOps (context true quote s t r).1.heap (some (context true quote s t r).2) "INFO" "%s" [.redacted "secret"] = .tester t "INFO: secret" ∧
    logLine plainOps (context false quote s t r).1.heap (some (context false quote s t r).2) "INFO" "%s" [.redacted "secret"] = .default "***" := by
  constructor
  · have := C155_logs plainOps true quote s t r [] (by simp) "INFO" "%s" [.redacted "secret"]
    exact this.trans (congrArg (Line.tester t) (by decide : _ = "INFO: secret"))
  · have := C155_logs plainOps false quote s t r [] (by simp) "INFO" "%s" [.redacted "secret"]
    exact this.trans (by rfl)

/-- C155: the context has the deadline of the test, none if the test has none; and it is this context whose timer runs. -/
theorem C155_deadline (term : Bool) (quote : String → String) (s : St) (t : Nat) (r : Tester) :
    deadline (context term quote s t r).2 = r.deadline ∧ (context term quote s t r).1.world.nodes = s.world.nodes ++ [(context term quote s t r).2] := by
  refine ⟨?_, rfl⟩
  cases term <;> simp only [context, attach, withHelper, withLogFunc] <;> cases r.deadline <;> simp [deadline]

/-! ### examples -/

/-- A test, a benchmark and a second test with a deadline. -/
def three : List Tester := [⟨"TestA", true, none, []⟩, ⟨"BenchmarkB", false, none, []⟩, ⟨"TestC", true, some 60, []⟩]

/-- The first test registers a cleanup function, then makes a context. -/
def ctxA : St × Ctx := context true id { start three with testers := push (start three).testers 0 none } 0 ⟨"TestA", true, none, [none]⟩

example : ctxA.2 = .cancel 0 none (.config 0 (.config 0 (.value (.other 0) 0 (.tag "test" "TestA" .background)))) ∧ cleanOf ctxA.1 0 = [some 0, none] ∧ ctxA.1.heap = [⟨some 0, some 0⟩] :=
  ⟨rfl, rfl, rfl⟩

/-- The other test makes one too: it has a deadline, and its own logger. When the first finishes, only the first is cancelled. -/
example : let r := context true id ctxA.1 2 ⟨"TestC", true, some 60, []⟩
    deadline r.2 = some 60 ∧ r.1.heap = [⟨some 0, some 0⟩, ⟨some 2, some 2⟩] ∧ ((err (finish r.1 0).world ctxA.2).isSome, (err (finish r.1 0).world r.2).isSome) = (true, false) := ⟨rfl, rfl, rfl⟩

/-- An assertion in a benchmark. -/
example : assertJSON three (some (.value testerKey 1 ctxA.2)) (.ok []) = .error .nilDeref ∧ (∃ v, assertJSON three (some (.tag "a" "1" ctxA.2)) v = .ok (0, v)) := ⟨rfl, .ok [], rfl⟩

end Verif.Test.Contexts

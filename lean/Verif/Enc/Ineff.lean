import Verif.Enc.Unmarshal
/-!
# Warnings about slow types (C137)

`warnIneff` (enc/handler.go L30, L162-168) is called by every `Unmarshal` into a `json.RawMessage` (L85) or into a type with `UnmarshalJSON` (L99). It keeps the messages it has
logged in a map of the package that no lock protects. Each access to the map is two steps here, its begin and its end. As in Go's runtime, an access that begins during a write ends
the program, except reading from an empty map; reading while a write begins is not noticed.
-/
set_option autoImplicit false
namespace Verif.Enc.Ineff
open Verif.Strconv Verif.Enc

/-- How far a call of `warnIneff` is. enc/handler.go L162-168. -/
inductive Pc where
  | start
  | reading
  /-- the message was not in the map -/
  | missing
  | writing
  /-- the map was written to, the warning is not logged yet -/
  | wrote
  | done
deriving DecidableEq

/-- The map `ineff` (its keys; every value is true), whether it is being written to, whether the program was ended, the warnings logged, newest last, and how far the calls are.
enc/handler.go L30, L162-168. -/
structure St where
  known : List Str := []
  writing : Bool := false
  fatal : Bool := false
  logged : List (Nat × Str) := []
  pc : Nat → Pc := fun _ => .start

/-- The steps of call `i`. enc/handler.go L164-166. -/
inductive Act where
  | beginRead (i : Nat)
  | endRead (i : Nat)
  | beginWrite (i : Nat)
  | endWrite (i : Nat)
  | log (i : Nat)
deriving DecidableEq

/-- A call goes on. enc/handler.go L162-168. -/
def St.put (s : St) (i : Nat) (p : Pc) : St := { s with pc := fun j => if j = i then p else s.pc j }

/-- One step of the calls, of which call `i` is about the message `msg i`; nothing happens once the program was ended. enc/handler.go L162-168. -/
def step (msg : Nat → Str) (s : St) : Act → Option St
  | .beginRead i =>
    if s.fatal then none
    else match s.pc i with
      | .start => if s.writing && !s.known.isEmpty then some { s with fatal := true } else some (s.put i .reading)
      | _ => none
  | .endRead i =>
    if s.fatal then none
    else match s.pc i with
      | .reading => some (s.put i (if msg i ∈ s.known then .done else .missing))
      | _ => none
  | .beginWrite i =>
    if s.fatal then none
    else match s.pc i with
      | .missing => if s.writing then some { s with fatal := true } else some { s.put i .writing with writing := true }
      | _ => none
  | .endWrite i =>
    if s.fatal then none
    else match s.pc i with
      | .writing => some { s.put i .wrote with writing := false, known := s.known ++ [msg i] }
      | _ => none
  | .log i =>
    if s.fatal then none
    else match s.pc i with
      | .wrote => some { s.put i .done with logged := s.logged ++ [(i, msg i)] }
      | _ => none

/-- Several steps. enc/handler.go L162-168. -/
def run (msg : Nat → Str) : List Act → St → Option St
  | [], s => some s
  | a :: l, s => (step msg s a).bind (run msg l)

/-- The steps of a call on its own, after the messages `before` were logged. enc/handler.go L162-168. -/
def whole (msg : Nat → Str) (before : List Str) (i : Nat) : List Act :=
  if msg i ∈ before then [.beginRead i, .endRead i] else [.beginRead i, .endRead i, .beginWrite i, .endWrite i, .log i]

/-- Calls one after another. -/
def serial (msg : Nat → Str) : List Str → List Nat → List Act
  | _, [] => []
  | before, i :: l => whole msg before i ++ serial msg (before ++ [msg i]) l

theorem run_append (msg : Nat → Str) : ∀ (l m : List Act) (s : St), run msg (l ++ m) s = (run msg l s).bind (run msg m)
  | [], _, _ => rfl
  | a :: l, m, s => by
    show (step msg s a).bind _ = ((step msg s a).bind _).bind _
    cases step msg s a with
    | none => rfl
    | some s' => exact run_append msg l m s'

theorem run_whole (msg : Nat → Str) (before : List Str) (i : Nat) (s : St) (hw : s.writing = false) (hf : s.fatal = false) (hp : s.pc i = .start)
    (hk : ∀ m, m ∈ s.known ↔ m ∈ before) :
    ∃ s', run msg (whole msg before i) s = some s' ∧ s'.writing = false ∧ s'.fatal = false ∧ s'.pc i = .done ∧ (∀ j, j ≠ i → s'.pc j = s.pc j) ∧
      (∀ m, m ∈ s'.known ↔ m ∈ before ++ [msg i]) ∧ s'.logged = s.logged ++ (if msg i ∈ before then [] else [(i, msg i)]) := by
  unfold whole
  by_cases hm : msg i ∈ before
  · have hm' : msg i ∈ s.known := (hk _).2 hm
    simp only [hm, hm', if_true, run, step, hf, hp, hw, Option.bind_some, St.put, Bool.false_eq_true, if_false, Bool.false_and, List.append_nil]
    refine ⟨_, rfl, rfl, rfl, if_pos rfl, fun j hj => by simp [hj], fun m => ?_, rfl⟩
    show m ∈ s.known ↔ _
    rw [hk, List.mem_append, List.mem_singleton]
    exact ⟨Or.inl, fun h => h.elim id fun h => h ▸ hm⟩
  · have hm' : msg i ∉ s.known := fun h => hm ((hk _).1 h)
    simp only [hm, hm', if_true, run, step, hf, hp, hw, Option.bind_some, St.put, Bool.false_eq_true, if_false, Bool.false_and]
    refine ⟨_, rfl, rfl, rfl, if_pos rfl, fun j hj => by simp [hj], fun m => ?_, rfl⟩
    show m ∈ s.known ++ [msg i] ↔ _
    rw [List.mem_append, hk, List.mem_append]

/-- Calls that do not overlap: the program goes on, and a call warns if and only if its message was in no call before it. -/
theorem C137_serial_partial (msg : Nat → Str) (l : List Nat) (hn : l.Nodup) :
    ∃ s, run msg (serial msg [] l) {} = some s ∧ s.fatal = false ∧ (∀ i ∈ l, s.pc i = .done) ∧
      (∀ i m, (i, m) ∈ s.logged ↔ m = msg i ∧ ∃ before after, l = before ++ i :: after ∧ ∀ j ∈ before, msg j ≠ m) ∧
      (∀ m, (∃ i ∈ l, msg i = m) → (s.logged.filter fun e => e.2 == m).length = 1) := by
  have key : ∀ (l : List Nat) (before : List Str) (s : St), l.Nodup → s.writing = false → s.fatal = false → (∀ i ∈ l, s.pc i = .start) →
      (∀ m, m ∈ s.known ↔ m ∈ before) →
      ∃ s', run msg (serial msg before l) s = some s' ∧ s'.fatal = false ∧ (∀ i ∈ l, s'.pc i = .done) ∧ (∀ j, j ∉ l → s'.pc j = s.pc j) ∧
        ∃ more, s'.logged = s.logged ++ more ∧
          (∀ i m, (i, m) ∈ more ↔ m = msg i ∧ m ∉ before ∧ ∃ pre post, l = pre ++ i :: post ∧ ∀ j ∈ pre, msg j ≠ m) ∧
          (∀ m, (more.filter fun e => e.2 == m).length = if m ∉ before ∧ ∃ i ∈ l, msg i = m then 1 else 0) := by
    intro l
    induction l with
    | nil =>
      intro before s _ _ hf _ _
      refine ⟨s, rfl, hf, by simp, fun _ _ => rfl, [], by simp, fun i m => ?_, fun m => by simp⟩
      constructor
      · intro h; cases h
      · rintro ⟨_, _, pre, post, h, _⟩
        cases pre <;> cases h
    | cons i l ih =>
      intro before s hn hw hf hs hk
      rw [List.nodup_cons] at hn
      obtain ⟨s1, h1, h2, h3, h4, h5, h6, h7⟩ := run_whole msg before i s hw hf (hs i (List.mem_cons_self ..)) hk
      obtain ⟨s2, k1, k2, k3, k4, more, k5, k6, k7⟩ := ih (before ++ [msg i]) s1 hn.2 h2 h3
        (fun j hj => by rw [h5 j fun h => hn.1 (h ▸ hj)]; exact hs j (List.mem_cons_of_mem _ hj)) h6
      refine ⟨s2, ?_, k2, ?_, ?_, (if msg i ∈ before then [] else [(i, msg i)]) ++ more, ?_, ?_, ?_⟩
      · show run msg (whole msg before i ++ _) s = _
        rw [run_append, h1]; exact k1
      · intro j hj
        rcases List.mem_cons.1 hj with rfl | hj
        · rw [k4 j hn.1, h4]
        · exact k3 j hj
      · intro j hj
        rw [List.mem_cons, not_or] at hj
        rw [k4 j hj.2, h5 j hj.1]
      · rw [k5, h7, List.append_assoc]
      · intro j m
        rw [List.mem_append, k6]
        constructor
        · rintro (h | ⟨hm, hb, pre, post, hl, hpre⟩)
          · by_cases hb : msg i ∈ before
            · rw [if_pos hb] at h; cases h
            · rw [if_neg hb, List.mem_singleton] at h
              injection h with h1 h2
              subst h1 h2
              exact ⟨rfl, hb, [], l, rfl, by simp⟩
          · rw [List.mem_append, not_or, List.mem_singleton] at hb
            refine ⟨hm, hb.1, i :: pre, post, by rw [hl]; rfl, fun j' hj' => ?_⟩
            rcases List.mem_cons.1 hj' with rfl | hj'
            · exact fun h => hb.2 h.symm
            · exact hpre j' hj'
        · rintro ⟨hm, hb, pre, post, hl, hpre⟩
          cases pre with
          | nil =>
            injection hl with h1 h2
            subst h1 hm
            left
            rw [if_neg hb]; exact List.mem_singleton.2 rfl
          | cons p pre =>
            injection hl with h1 h2
            subst h1
            refine Or.inr ⟨hm, ?_, pre, post, h2, fun j' hj' => hpre j' (List.mem_cons_of_mem _ hj')⟩
            rw [List.mem_append, not_or, List.mem_singleton]
            exact ⟨hb, fun h => hpre i (List.mem_cons_self ..) h.symm⟩
      · intro m
        rw [List.filter_append, List.length_append, k7]
        by_cases hb : msg i ∈ before <;> by_cases hm : msg i = m
        · subst hm; simp [hb]
        · have : m ≠ msg i := fun h => hm h.symm
          simp [hb, hm, this]
        · subst hm; simp [hb]
        · have : m ≠ msg i := fun h => hm h.symm
          simp [hb, hm, this]
  obtain ⟨s, h1, h2, h3, _, more, h5, h6, h7⟩ := key l [] {} hn rfl rfl (fun _ _ => rfl) (fun _ => Iff.rfl)
  have hl : s.logged = more := by rw [h5]; rfl
  refine ⟨s, h1, h2, h3, fun i m => ?_, fun m hm => ?_⟩
  · rw [hl, h6]; simp
  · rw [hl, h7, if_pos ⟨by simp, hm⟩]

/-- C137 is violated: two calls about messages not logged yet can end the program, whatever the messages. -/
theorem C137_race_violated (msg : Nat → Str) (known : List Str) (i j : Nat) (hij : i ≠ j) (hi : msg i ∉ known) (hj : msg j ∉ known) :
    ∃ l s, run msg l { known := known } = some s ∧ s.fatal = true := by
  refine ⟨[.beginRead i, .endRead i, .beginRead j, .endRead j, .beginWrite i, .beginWrite j], ?_⟩
  have hji : j ≠ i := Ne.symm hij
  simp [run, step, St.put, hji, hij, hi, hj]

/-- And a call about a message that was logged long ago ends the program if it begins while another one is being added. -/
theorem C137_reader_violated (msg : Nat → Str) (known : List Str) (i j : Nat) (hij : i ≠ j) (hi : msg i ∉ known) (hj : msg j ∈ known) :
    ∃ l s, run msg l { known := known } = some s ∧ s.fatal = true := by
  refine ⟨[.beginRead i, .endRead i, .beginWrite i, .beginRead j], ?_⟩
  have hji : j ≠ i := Ne.symm hij
  have hk : known ≠ [] := fun h => by rw [h] at hj; cases hj
  simp [run, step, St.put, hji, hi, hk]

/-- C137 is violated: two calls about the same message may both log it. -/
theorem C137_twice_violated (msg : Nat → Str) (i j : Nat) (hij : i ≠ j) (hm : msg i = msg j) :
    ∃ l s, run msg l {} = some s ∧ s.fatal = false ∧ s.logged = [(i, msg i), (j, msg i)] := by
  refine ⟨[.beginRead i, .endRead i, .beginRead j, .endRead j, .beginWrite i, .endWrite i, .log i, .beginWrite j, .endWrite j, .log j], ?_⟩
  have hji : j ≠ i := Ne.symm hij
  simp [run, step, St.put, hji, hij, hm]

/-- What stays true in every order of steps: a message in the map was there before, was logged, or is about to be by the call that added it; only messages of calls are logged, by the call
itself and once; a call that has returned finds its message in the map. -/
def Inv (msg : Nat → Str) (init : List Str) (s : St) : Prop :=
  (∀ m, m ∈ s.known → m ∈ init ∨ (∃ i, s.pc i = .wrote ∧ msg i = m) ∨ ∃ i, (i, m) ∈ s.logged) ∧
  (∀ i m, (i, m) ∈ s.logged → msg i = m ∧ s.pc i = .done) ∧ (s.logged.map Prod.fst).Nodup ∧
  (∀ i, s.pc i = .done ∨ s.pc i = .wrote → msg i ∈ s.known) ∧ ((∃ i, s.pc i = .writing) → s.writing = true) ∧
  (∀ i j, s.pc i = .writing → s.pc j = .writing → i = j)

theorem inv_put (msg : Nat → Str) (init : List Str) (s : St) (i : Nat) (p : Pc) (w : Bool) (h : Inv msg init s) (hp : s.pc i ≠ .wrote) (hp' : s.pc i ≠ .done)
    (hd : p = .done ∨ p = .wrote → msg i ∈ s.known) (hw : p = .writing ∨ s.writing = true → w = true)
    (hone : p = .writing → ∀ j, s.pc j ≠ .writing) : Inv msg init { s.put i p with writing := w } := by
  obtain ⟨h1, h2, h3, h4, h5, h6⟩ := h
  refine ⟨fun m hm => ?_, fun j m hm => ?_, h3, fun j hj => ?_, ?_, ?_⟩
  · rcases h1 m hm with h | ⟨j, hj, hm⟩ | h
    · exact Or.inl h
    · refine Or.inr (Or.inl ⟨j, ?_, hm⟩)
      by_cases hji : j = i
      · subst hji; exact absurd hj hp
      · simp [St.put, hji, hj]
    · exact Or.inr (Or.inr h)
  · have := h2 j m hm
    by_cases hji : j = i
    · subst hji; exact absurd this.2 hp'
    · simp [St.put, hji, this]
  · by_cases hji : j = i
    · subst hji; exact hd (by simpa [St.put] using hj)
    · exact h4 j (by simpa [St.put, hji] using hj)
  · rintro ⟨j, hj⟩
    by_cases hji : j = i
    · subst hji; exact hw (Or.inl (by simpa [St.put] using hj))
    · exact hw (Or.inr (h5 ⟨j, by simpa [St.put, hji] using hj⟩))
  · intro j k hj hk
    by_cases hji : j = i <;> by_cases hki : k = i
    · rw [hji, hki]
    · subst hji
      have := hone (by simpa [St.put] using hj) k
      exact absurd (by simpa [St.put, hki] using hk) this
    · subst hki
      have := hone (by simpa [St.put] using hk) j
      exact absurd (by simpa [St.put, hji] using hj) this
    · exact h6 j k (by simpa [St.put, hji] using hj) (by simpa [St.put, hki] using hk)

theorem inv_step (msg : Nat → Str) (init : List Str) (s s' : St) (a : Act) (h : Inv msg init s) (hs : step msg s a = some s') : Inv msg init s' := by
  cases a with
  | beginRead i =>
    simp only [step] at hs
    split at hs
    · cases hs
    · split at hs
      · rename_i hp
        split at hs <;> injection hs with hs <;> subst hs
        · exact h
        · exact inv_put msg init s i .reading s.writing h (by rw [hp]; decide) (by rw [hp]; decide) (by simp) (by simp) (by simp)
      · cases hs
  | endRead i =>
    simp only [step] at hs
    split at hs
    · cases hs
    · split at hs
      · rename_i hp
        injection hs with hs
        subst hs
        refine inv_put msg init s i _ s.writing h (by rw [hp]; decide) (by rw [hp]; decide) ?_ ?_ ?_
        · by_cases hk : msg i ∈ s.known <;> simp [hk]
        · by_cases hk : msg i ∈ s.known <;> simp [hk]
        · by_cases hk : msg i ∈ s.known <;> simp [hk]
      · cases hs
  | beginWrite i =>
    simp only [step] at hs
    split at hs
    · cases hs
    · split at hs
      · rename_i hp
        split at hs <;> injection hs with hs <;> subst hs
        · exact h
        · exact inv_put msg init s i .writing true h (by rw [hp]; decide) (by rw [hp]; decide) (by simp) (by simp)
            fun _ j hj => by have := h.2.2.2.2.1 ⟨j, hj⟩; contradiction
      · cases hs
  | endWrite i =>
    simp only [step] at hs
    split at hs
    · cases hs
    · split at hs
      · rename_i hp
        injection hs with hs
        subst hs
        obtain ⟨h1, h2, h3, h4, h5, h6⟩ := h
        refine ⟨fun m hm => ?_, fun j m hm => ?_, h3, fun j hj => ?_, ?_, ?_⟩
        · rcases List.mem_append.1 hm with hm | hm
          · rcases h1 m hm with h | ⟨j, hj, hm⟩ | h
            · exact Or.inl h
            · refine Or.inr (Or.inl ⟨j, ?_, hm⟩)
              by_cases hji : j = i
              · subst hji; simp [St.put]
              · simp [St.put, hji, hj]
            · exact Or.inr (Or.inr h)
          · refine Or.inr (Or.inl ⟨i, by simp [St.put], (List.mem_singleton.1 hm).symm⟩)
        · have := h2 j m hm
          by_cases hji : j = i
          · subst hji; rw [hp] at this; exact absurd this.2 (by decide)
          · simp [St.put, hji, this]
        · by_cases hji : j = i
          · subst hji; exact List.mem_append_right _ (List.mem_singleton.2 rfl)
          · exact List.mem_append_left _ (h4 j (by simpa [St.put, hji] using hj))
        · rintro ⟨j, hj⟩
          by_cases hji : j = i
          · subst hji; simp [St.put] at hj
          · exact absurd (h6 i j hp (by simpa [St.put, hji] using hj)) (Ne.symm hji)
        · intro j k hj hk
          by_cases hji : j = i
          · subst hji; simp [St.put] at hj
          · by_cases hki : k = i
            · subst hki; simp [St.put] at hk
            · exact h6 j k (by simpa [St.put, hji] using hj) (by simpa [St.put, hki] using hk)
      · cases hs
  | log i =>
    simp only [step] at hs
    split at hs
    · cases hs
    · split at hs
      · rename_i hp
        injection hs with hs
        subst hs
        obtain ⟨h1, h2, h3, h4, h5, h6⟩ := h
        refine ⟨fun m hm => ?_, fun j m hm => ?_, ?_, fun j hj => ?_, ?_, ?_⟩
        · rcases h1 m hm with h | ⟨j, hj, hm'⟩ | ⟨j, hj⟩
          · exact Or.inl h
          · by_cases hji : j = i
            · subst hji hm'; exact Or.inr (Or.inr ⟨j, List.mem_append_right _ (List.mem_singleton.2 rfl)⟩)
            · exact Or.inr (Or.inl ⟨j, by simp [St.put, hji, hj], hm'⟩)
          · exact Or.inr (Or.inr ⟨j, List.mem_append_left _ hj⟩)
        · rcases List.mem_append.1 hm with hm | hm
          · have := h2 j m hm
            by_cases hji : j = i
            · subst hji; simp [St.put, this]
            · simp [St.put, hji, this]
          · injection List.mem_singleton.1 hm with hj hm
            subst hj hm
            simp [St.put]
        · show ((s.logged ++ [(i, msg i)]).map Prod.fst).Nodup
          rw [List.map_append, List.nodup_append]
          refine ⟨h3, by simp, fun a ha b hb => ?_⟩
          obtain ⟨⟨a', m⟩, hm, rfl⟩ := List.mem_map.1 ha
          have hb : b = i := by simpa using hb
          subst hb
          intro hab
          have := (h2 a' m hm).2
          simp only at hab
          rw [hab, hp] at this
          cases this
        · by_cases hji : j = i
          · subst hji; exact h4 j (Or.inr hp)
          · exact h4 j (by simpa [St.put, hji] using hj)
        · rintro ⟨j, hj⟩
          by_cases hji : j = i
          · subst hji; simp [St.put] at hj
          · exact h5 ⟨j, by simpa [St.put, hji] using hj⟩
        · intro j k hj hk
          by_cases hji : j = i
          · subst hji; simp [St.put] at hj
          · by_cases hki : k = i
            · subst hki; simp [St.put] at hk
            · exact h6 j k (by simpa [St.put, hji] using hj) (by simpa [St.put, hki] using hk)
      · cases hs

theorem inv_run (msg : Nat → Str) (init : List Str) : ∀ (l : List Act) (s s' : St), Inv msg init s → run msg l s = some s' → Inv msg init s'
  | [], s, s', h, hr => by cases hr; exact h
  | a :: l, s, s', h, hr => by
    obtain ⟨t, ht, hr⟩ := Option.bind_eq_some_iff.1 hr
    exact inv_run msg init l t s' (inv_step msg init s t a h ht) hr

/-- In every order of steps in which the program goes on: a call logs its own message and at most once, and once all calls that began have returned, every message they were about
was logged, unless it was in the map before. -/
theorem C137_told (msg : Nat → Str) (known : List Str) (l : List Act) (s : St) (hr : run msg l { known := known } = some s) :
    (∀ i m, (i, m) ∈ s.logged → msg i = m) ∧ (s.logged.map Prod.fst).Nodup ∧
      ((∀ i, s.pc i = .start ∨ s.pc i = .done) → ∀ i, s.pc i = .done → msg i ∈ known ∨ ∃ j, (j, msg i) ∈ s.logged) := by
  have h : Inv msg known s := inv_run msg known l _ s
    ⟨fun m hm => Or.inl hm, by simp, by simp, by simp, by simp, by simp⟩ hr
  obtain ⟨h1, h2, h3, h4, _⟩ := h
  refine ⟨fun i m hm => (h2 i m hm).1, h3, fun hall i hi => ?_⟩
  rcases h1 _ (h4 i (Or.inl hi)) with h | ⟨j, hj, _⟩ | h
  · exact Or.inl h
  · rcases hall j with h | h <;> rw [hj] at h <;> cases h
  · exact Or.inr h

/-- Once a message was logged, calls about it are safe together: in every order of their steps the program goes on and nothing is logged. -/
theorem C137_known_partial (msg : Nat → Str) (known : List Str) (hall : ∀ i, msg i ∈ known) (l : List Act) (s : St) (hr : run msg l { known := known } = some s) :
    s.fatal = false ∧ s.logged = [] ∧ s.known = known := by
  have key : ∀ (l : List Act) (s s' : St), (s.fatal = false ∧ s.writing = false ∧ s.logged = [] ∧ s.known = known ∧
      ∀ i, s.pc i = .start ∨ s.pc i = .reading ∨ s.pc i = .done) → run msg l s = some s' → s'.fatal = false ∧ s'.logged = [] ∧ s'.known = known := by
    intro l
    induction l with
    | nil => intro s s' ⟨h1, _, h3, h4, _⟩ hr; cases hr; exact ⟨h1, h3, h4⟩
    | cons a l ih =>
      intro s s' ⟨h1, h2, h3, h4, h5⟩ hr
      obtain ⟨t, ht, hr⟩ := Option.bind_eq_some_iff.1 hr
      refine ih t s' ?_ hr
      have hput : ∀ i p, p = .reading ∨ p = .done → ∀ j, (s.put i p).pc j = .start ∨ (s.put i p).pc j = .reading ∨ (s.put i p).pc j = .done := by
        intro i p hp j
        by_cases hji : j = i
        · subst hji; simpa [St.put] using Or.inr hp
        · simpa [St.put, hji] using h5 j
      cases a with
      | beginRead i =>
        simp only [step, h1, h2, Bool.false_eq_true, if_false, Bool.false_and] at ht
        split at ht
        · injection ht with ht
          subst ht
          exact ⟨h1, h2, h3, h4, hput i .reading (Or.inl rfl)⟩
        · cases ht
      | endRead i =>
        simp only [step, h1, Bool.false_eq_true, if_false] at ht
        split at ht
        · injection ht with ht
          subst ht
          have hm : msg i ∈ s.known := by rw [h4]; exact hall i
          rw [if_pos hm]
          exact ⟨h1, h2, h3, h4, hput i .done (Or.inr rfl)⟩
        · cases ht
      | beginWrite i =>
        simp only [step, h1, Bool.false_eq_true, if_false] at ht
        have := h5 i
        split at ht
        · rename_i hp; rw [hp] at this; exact absurd this (by decide)
        · cases ht
      | endWrite i =>
        simp only [step, h1, Bool.false_eq_true, if_false] at ht
        have := h5 i
        split at ht
        · rename_i hp; rw [hp] at this; exact absurd this (by decide)
        · cases ht
      | log i =>
        simp only [step, h1, Bool.false_eq_true, if_false] at ht
        have := h5 i
        split at ht
        · rename_i hp; rw [hp] at this; exact absurd this (by decide)
        · cases ht
  exact key l { known := known } s ⟨rfl, rfl, rfl, rfl, fun _ => Or.inl rfl⟩ hr

/-- Two messages, three calls one after another: two warnings. -/
example : (run (fun i => if i = 1 then lit "raw" else lit "time") (serial (fun i => if i = 1 then lit "raw" else lit "time") [] [0, 1, 2]) {}).map (·.logged) =
    some [(0, lit "time"), (1, lit "raw")] := by decide

end Verif.Enc.Ineff

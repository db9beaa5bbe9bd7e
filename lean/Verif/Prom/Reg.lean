import Verif.Sync.Locked
import Verif.Prom.Model
/-!
# The registry used by several goroutines (C168) (utils/prom/metric.go)

`Register` and the copy that `Range` makes hold the mutex; what they do is split into single reads and writes of the map. A metric is an interface and may be nil (`none`).
`Range` calls back after it released the mutex, so that the callbacks are no part of this.
-/
set_option autoImplicit false
namespace Verif.Prom.Reg
open Verif.Sync.Locked

variable {M : Type}

/-- `registry.metrics`. utils/prom/metric.go L13-18. -/
abbrev Metrics (M : Type) := List (String × Option M)

/-- `registry.metrics[name] = m`. utils/prom/metric.go L27. -/
def set (name : String) (m : Option M) (c : Metrics M) : Metrics M := c.filter (fun p => p.1 ≠ name) ++ [(name, m)]

/-- An order of iteration over a map: any order of its keys. utils/prom/metric.go L34. -/
structure Order where
  f : List String → List String
  perm : ∀ l, (f l).Perm l

/-- Calls of `Register` and `Range`. utils/prom/metric.go L20, L31. -/
inductive Op (M : Type) where
  | register (name : String) (m : Option M)
  | range (o : Order)

/-- How they end: `Register` returns or panics; `Range` has a copy. utils/prom/metric.go L25, L28, L37. -/
inductive Ret (M : Type) where
  | ok
  | panic
  | seen (out : Metrics M)

/-- The loop of `Range` (utils/prom/metric.go L34-36): the names in some order, each looked at in turn. -/
def copy : List String → Metrics M → Body (Metrics M) (Ret M)
  | [], out => .ret (.seen out)
  | n :: ns, out => .step id fun c => copy ns (match c.lookup n with | some m => out ++ [(n, m)] | none => out)

/-- `Register` (L20-29), and `Range` up to L37; utils/prom/metric.go. -/
def code : Op M → Body (Metrics M) (Ret M)
  | .register name m => .step id fun c => match c.lookup name with
    | some (some _) => .ret .panic
    | _ => .step (set name m) fun _ => .ret .ok
  | .range o => .step id fun c => copy (o.f (c.map (·.1))) []

/-- The registry as an object used by goroutines: both lock. utils/prom/metric.go L21-22, L33, L37. -/
def registry : Obj (Metrics M) (Op M) (Ret M) := ⟨code, fun _ => true⟩

/-! ### what should be -/

/-- The calls, one after the other, answer as a table of names does: a name with a metric is refused, every other is set; the copy has each name once, with its metric. -/
def Answers : (String → Option (Option M)) → List (Op M × Ret M) → Prop
  | _, [] => True
  | F, (.register name m, r) :: l => match F name with
    | some (some _) => r = .panic ∧ Answers F l
    | _ => r = .ok ∧ Answers (fun n => if n = name then some m else F n) l
  | F, (.range _, r) :: l => (∃ out, r = .seen out ∧ (out.map (·.1)).Nodup ∧ ∀ n m, (n, m) ∈ out ↔ F n = some m) ∧ Answers F l

/-! ### one call -/

theorem lookup_filter (c : Metrics M) (name n : String) : (c.filter fun p => p.1 ≠ name).lookup n = if n = name then none else c.lookup n := by
  induction c with
  | nil => simp
  | cons p c ih =>
    obtain ⟨a, m⟩ := p
    by_cases ha : a = name
    · simp only [ha, List.filter_cons, ne_eq, not_true_eq_false, decide_false, Bool.false_eq_true, if_false]
      rw [ih]
      by_cases hn : n = name
      · simp [hn]
      · simp [hn, List.lookup_cons, beq_eq_false_iff_ne.2 hn]
    · simp only [ne_eq, ha, not_false_eq_true, List.filter_cons, decide_true, if_true, List.lookup_cons]
      by_cases hn : n = a
      · subst hn; simp [ha]
      · have : (n == a) = false := beq_eq_false_iff_ne.2 hn
        simp only [ne_eq] at ih
        simp only [this, ih]

theorem lookup_set (c : Metrics M) (name n : String) (m : Option M) : (set name m c).lookup n = if n = name then some m else c.lookup n := by
  unfold set
  have happ : ∀ (a b : Metrics M), (a ++ b).lookup n = (a.lookup n).or (b.lookup n) := by
    intro a b
    induction a with
    | nil => simp
    | cons p a ih =>
      obtain ⟨x, y⟩ := p
      simp only [List.cons_append, List.lookup_cons]
      cases n == x <;> simp [ih]
  rw [happ, lookup_filter]
  by_cases hn : n = name
  · simp [hn]
  · simp [hn, List.lookup_cons, beq_eq_false_iff_ne.2 hn]

theorem lookup_isSome (c : Metrics M) (n : String) : (c.lookup n).isSome = true ↔ n ∈ c.map (·.1) := by
  induction c with
  | nil => simp
  | cons p c ih =>
    obtain ⟨a, m⟩ := p
    by_cases hn : n = a
    · simp [hn]
    · simp [List.lookup_cons, beq_eq_false_iff_ne.2 hn, ih, hn]

theorem copy_run (ns : List String) (out c : Metrics M) : (copy ns out).run c = (c, .seen (out ++ ns.filterMap fun n => (c.lookup n).map fun m => (n, m))) := by
  induction ns generalizing out with
  | nil => simp [copy, Body.run]
  | cons n ns ih =>
    simp only [copy, Body.run, id, ih, List.filterMap_cons]
    cases c.lookup n <;> simp

theorem names_once (ns : List String) (c : Metrics M) (h : ns.Nodup) : ((ns.filterMap fun n => (c.lookup n).map fun m => (n, m)).map (·.1)).Nodup := by
  have hsub : ((ns.filterMap fun n => (c.lookup n).map fun m => (n, m)).map (·.1)).Sublist ns := by
    clear h
    induction ns with
    | nil => simp
    | cons n ns ih =>
      simp only [List.filterMap_cons]
      cases c.lookup n with
      | none => exact .cons _ ih
      | some m => exact .cons_cons _ ih
  exact hsub.nodup h

theorem nodup_set (c : Metrics M) (name : String) (m : Option M) (h : (c.map (·.1)).Nodup) : ((set name m c).map (·.1)).Nodup := by
  unfold set
  rw [List.map_append, List.nodup_append]
  refine ⟨((List.filter_sublist (l := c)).map (·.1)).nodup h, by simp, ?_⟩
  intro a ha b hb e
  simp only [List.map_cons, List.map_nil, List.mem_singleton] at hb
  subst e hb
  obtain ⟨p, hp, hpe⟩ := List.mem_map.1 ha
  have := (List.mem_filter.1 hp).2
  simp [hpe] at this

theorem seq_answers (ops : List (Op M)) (c : Metrics M) (hc : (c.map (·.1)).Nodup) (F : String → Option (Option M)) (hF : ∀ n, c.lookup n = F n) :
    Answers F (ops.zip (seq registry c ops).2) := by
  induction ops generalizing c F with
  | nil => trivial
  | cons op ops ih =>
    simp only [seq, List.zip_cons_cons]
    cases op with
    | register name m =>
      have hr : (registry.body (.register name m)).run c = match F name with | some (some _) => (c, .panic) | _ => (set name m c, .ok) := by
        simp only [registry, code, Body.run, id, hF]
        cases F name with
        | none => rfl
        | some x => cases x <;> rfl
      rw [hr]
      have hset : ∀ n, (set name m c).lookup n = (fun n => if n = name then some m else F n) n := fun n => by rw [lookup_set, hF]
      cases hFn : F name with
      | none => simp only [Answers, hFn, true_and]; exact ih _ (nodup_set c name m hc) _ hset
      | some x =>
        cases x with
        | none => simp only [Answers, hFn, true_and]; exact ih _ (nodup_set c name m hc) _ hset
        | some y => simp only [Answers, hFn, true_and]; exact ih _ hc _ hF
    | range o =>
      have hr : (registry.body (.range o)).run c = (c, .seen ((o.f (c.map (·.1))).filterMap fun n => (c.lookup n).map fun m => (n, m))) := by
        simp only [registry, code, Body.run, id, copy_run, List.nil_append]
      rw [hr]
      refine ⟨⟨_, rfl, names_once _ _ ((o.perm _).nodup_iff.2 hc), fun n m => ?_⟩, ih _ hc _ hF⟩
      simp only [List.mem_filterMap, (o.perm _).mem_iff]
      constructor
      · rintro ⟨x, hx, hm⟩
        cases hl : c.lookup x with
        | none => rw [hl] at hm; cases hm
        | some y =>
          rw [hl] at hm
          simp only [Option.map_some, Option.some.injEq, Prod.mk.injEq] at hm
          obtain ⟨rfl, rfl⟩ := hm
          rw [← hF, hl]
      · intro h
        rw [← hF] at h
        exact ⟨n, (lookup_isSome c n).1 (by simp [h]), by simp [h]⟩

/-! ### any interleaving -/

/-- C168: however goroutines are interleaved, the calls answer as those of one goroutine, in the order in which they release the mutex. -/
theorem C168_answers (tr : List (Ev (Op M) (Ret M))) (s : St (Metrics M) (Op M) (Ret M)) (h : Exec registry [] tr s) : Answers (fun _ => none) (finished registry tr) := by
  have h1 := (one_by_one registry (fun _ h => (nomatch h)) _ tr s h).1
  have h2 := seq_answers ((finished registry tr).map (·.1)) ([] : Metrics M) (by simp) (fun _ => none) (fun _ => rfl)
  rw [h1] at h2
  have hz : ∀ l : List (Op M × Ret M), (l.map (·.1)).zip (l.map (·.2)) = l := by
    intro l; induction l with
    | nil => rfl
    | cons x l ih => simp [ih]
  rwa [hz] at h2

/-- The calls register metrics that are not nil. -/
def NotNil (l : List (Op M × Ret M)) : Prop := ∀ n r, (.register n none, r) ∉ l

/-- The table after the calls: the metric of the registration that returned. -/
def After (F : String → Option (Option M)) (l : List (Op M × Ret M)) : String → Option (Option M) :=
  l.foldl (fun F x => match x with
    | (.register name m, .ok) => fun n => if n = name then some m else F n
    | _ => F) F

theorem answers_split (a : List (Op M × Ret M)) (b : List (Op M × Ret M)) (F : String → Option (Option M)) (h : Answers F (a ++ b)) : Answers (After F a) b := by
  induction a generalizing F with
  | nil => exact h
  | cons x a ih =>
    obtain ⟨op, r⟩ := x
    cases op with
    | register name m =>
      simp only [List.cons_append, Answers] at h
      cases hF : F name with
      | none => simp only [hF] at h; obtain ⟨rfl, h⟩ := h; exact ih _ h
      | some y =>
        cases y with
        | none => simp only [hF] at h; obtain ⟨rfl, h⟩ := h; exact ih _ h
        | some z => simp only [hF] at h; obtain ⟨rfl, h⟩ := h; exact ih _ h
    | range o =>
      simp only [List.cons_append, Answers] at h
      obtain ⟨⟨out, rfl, _⟩, h⟩ := h
      exact ih _ h

/-- The table knows exactly the registrations that returned. -/
theorem after_iff (a : List (Op M × Ret M)) (F : String → Option (Option M)) (hF : ∀ n, F n ≠ some none) (hn : NotNil a) (h : Answers F a) (n : String) (m : M) :
    After F a n = some (some m) ↔ F n = some (some m) ∨ (.register n (some m), .ok) ∈ a := by
  induction a generalizing F with
  | nil => simp [After]
  | cons x a ih =>
    have hn' : NotNil a := fun n r hm => hn n r (List.mem_cons_of_mem _ hm)
    obtain ⟨op, r⟩ := x
    cases op with
    | register name m' =>
      cases m' with
      | none => exact absurd List.mem_cons_self (hn name r)
      | some m' =>
        simp only [Answers] at h
        cases hFn : F name with
        | none =>
          simp only [hFn] at h
          obtain ⟨rfl, h⟩ := h
          show After (fun n => if n = name then some (some m') else F n) a n = _ ↔ _
          rw [ih _ (fun k => by by_cases hk : k = name <;> simp [hk, hF]) hn' h]
          by_cases hk : n = name
          · subst hk
            simp only [if_true, hFn, List.mem_cons, Prod.mk.injEq, Op.register.injEq, true_and, and_true, Option.some.injEq, reduceCtorEq, false_or]
            constructor
            · rintro (h | h)
              · exact .inl h.symm
              · exact .inr h
            · rintro (h | h)
              · exact .inl h.symm
              · exact .inr h
          · simp [hk]
        | some y =>
          cases y with
          | none => exact absurd hFn (hF name)
          | some z =>
            simp only [hFn] at h
            obtain ⟨rfl, h⟩ := h
            show After F a n = _ ↔ _
            rw [ih F hF hn' h]
            simp
    | range o =>
      simp only [Answers] at h
      obtain ⟨⟨out, rfl, _⟩, h⟩ := h
      show After F a n = _ ↔ _
      rw [ih F hF hn' h]
      simp

theorem answers_prefix (a b : List (Op M × Ret M)) (F : String → Option (Option M)) (h : Answers F (a ++ b)) : Answers F a := by
  induction a generalizing F with
  | nil => trivial
  | cons x a ih =>
    obtain ⟨op, r⟩ := x
    cases op with
    | register name m =>
      simp only [List.cons_append, Answers] at h ⊢
      cases hF : F name with
      | none => simp only [hF] at h ⊢; exact ⟨h.1, ih _ h.2⟩
      | some y =>
        cases y with
        | none => simp only [hF] at h ⊢; exact ⟨h.1, ih _ h.2⟩
        | some z => simp only [hF] at h ⊢; exact ⟨h.1, ih _ h.2⟩
    | range o =>
      simp only [List.cons_append, Answers] at h ⊢
      exact ⟨h.1, ih _ h.2⟩

theorem after_not_nil (a : List (Op M × Ret M)) (F : String → Option (Option M)) (hF : ∀ n, F n ≠ some none) (hn : NotNil a) (n : String) : After F a n ≠ some none := by
  induction a generalizing F with
  | nil => exact hF n
  | cons x a ih =>
    have hn' : NotNil a := fun n r hm => hn n r (List.mem_cons_of_mem _ hm)
    obtain ⟨op, r⟩ := x
    cases op with
    | register name m' =>
      cases m' with
      | none => exact absurd List.mem_cons_self (hn name r)
      | some m' =>
        cases r with
        | ok => exact ih _ (fun k => by by_cases hk : k = name <;> simp [hk, hF]) hn'
        | panic => exact ih _ hF hn'
        | seen out => exact ih _ hF hn'
    | range o => exact ih _ hF hn'

/-- C168, what holds: if no metric is nil then of the registrations of a name the first returns, and all others panic. Missing are nil metrics, see `C168_nil_violated`. -/
theorem C168_once_partial (tr : List (Ev (Op M) (Ret M))) (s : St (Metrics M) (Op M) (Ret M)) (h : Exec registry [] tr s) (hn : NotNil (finished registry tr))
    (a b : List (Op M × Ret M)) (name : String) (m : Option M) (r : Ret M) (he : finished registry tr = a ++ (.register name m, r) :: b) :
    (r = .ok ∧ ∀ m' r', (.register name m', r') ∉ a) ∨ (r = .panic ∧ ∃ m', (.register name (some m'), .ok) ∈ a) := by
  have ha := C168_answers tr s h
  rw [he] at ha hn
  have hna : NotNil a := fun n r hm => hn n r (List.mem_append_left _ hm)
  have hp := answers_prefix a _ _ ha
  have hs := answers_split a _ _ ha
  have key : ∀ (a : List (Op M × Ret M)), NotNil a → Answers (fun _ => none) a → After (fun _ => none) a name = none → ∀ m' r', (.register name m', r') ∉ a := by
    intro a hna hp hnone m' r' hm
    obtain ⟨a1, a2, rfl⟩ := List.append_of_mem hm
    have hn1 : NotNil a1 := fun n r hm => hna n r (List.mem_append_left _ hm)
    have h1 := answers_split a1 _ _ hp
    simp only [Answers] at h1
    have hnn := after_not_nil a1 (fun _ => none) (fun _ => by simp) hn1 name
    cases m' with
    | none => exact hna name r' hm
    | some m' =>
      have hsome : ∃ m'', (.register name (some m''), .ok) ∈ a1 ++ (.register name (some m'), r') :: a2 := by
        cases hA : After (fun _ => none) a1 name with
        | none =>
          simp only [hA] at h1
          obtain ⟨rfl, _⟩ := h1
          exact ⟨m', hm⟩
        | some y =>
          cases y with
          | none => exact absurd hA hnn
          | some z =>
            rcases (after_iff a1 _ (fun _ => by simp) hn1 (answers_prefix a1 _ _ hp) name z).1 hA with h | h
            · cases h
            · exact ⟨z, List.mem_append_left _ h⟩
      obtain ⟨m'', hm''⟩ := hsome
      have := (after_iff _ _ (fun _ => by simp) hna hp name m'').2 (.inr hm'')
      rw [hnone] at this; cases this
  simp only [Answers] at hs
  cases hA : After (fun _ => none) a name with
  | none =>
    simp only [hA] at hs
    exact .inl ⟨hs.1, key a hna hp hA⟩
  | some y =>
    cases y with
    | none => exact absurd hA (after_not_nil a _ (fun _ => by simp) hna name)
    | some z =>
      simp only [hA] at hs
      rcases (after_iff a _ (fun _ => by simp) hna hp name z).1 hA with h | h
      · cases h
      · exact .inr ⟨hs.1, z, h⟩

/-- C168, what holds if no metric is nil: `Range` sees each name once: exactly the metrics whose registration returned before. Missing are nil metrics, see `C168_nil_violated`. -/
theorem C168_range_partial (tr : List (Ev (Op M) (Ret M))) (s : St (Metrics M) (Op M) (Ret M)) (h : Exec registry [] tr s) (hn : NotNil (finished registry tr))
    (a b : List (Op M × Ret M)) (o : Order) (r : Ret M) (he : finished registry tr = a ++ (.range o, r) :: b) :
    ∃ out, r = .seen out ∧ (out.map (·.1)).Nodup ∧ ∀ n m, (n, m) ∈ out ↔ ∃ m', m = some m' ∧ (.register n (some m'), .ok) ∈ a := by
  have ha := C168_answers tr s h
  rw [he] at ha hn
  have hna : NotNil a := fun n r hm => hn n r (List.mem_append_left _ hm)
  obtain ⟨⟨out, hr, hnd, hout⟩, _⟩ := answers_split a _ _ ha
  refine ⟨out, hr, hnd, fun n m => ?_⟩
  rw [hout]
  cases m with
  | none => simp [after_not_nil a (fun _ => none) (fun _ => by simp) hna n]
  | some m =>
    rw [after_iff a _ (fun _ => by simp) hna (answers_prefix a _ _ ha)]
    simp

theorem finished_mem (tr : List (Ev (Op M) (Ret M))) (t : Nat) (op : Op M) (r : Ret M) (h : .exit t op r ∈ tr) : (op, r) ∈ finished registry tr := by
  simp only [finished, List.mem_filterMap]
  exact ⟨_, h, by simp [registry]⟩

/-- C168, what holds if no metric is nil: a metric whose registration returned is seen by every `Range` that returns later, in whichever goroutine. -/
theorem C168_later_partial (tr : List (Ev (Op M) (Ret M))) (s : St (Metrics M) (Op M) (Ret M)) (h : Exec registry [] tr s) (hn : NotNil (finished registry tr))
    (a b c : List (Ev (Op M) (Ret M))) (t u : Nat) (name : String) (m : M) (o : Order) (r : Ret M)
    (he : tr = a ++ .exit t (.register name (some m)) .ok :: b ++ .exit u (.range o) r :: c) : ∃ out, r = .seen out ∧ (name, some m) ∈ out := by
  have hf : finished registry tr = finished registry (a ++ .exit t (.register name (some m)) .ok :: b) ++ (.range o, r) :: finished registry c := by
    rw [he]; simp [finished, registry, List.filterMap_append]
  obtain ⟨out, hr, _, hout⟩ := C168_range_partial tr s h hn _ _ o r hf
  exact ⟨out, hr, (hout name (some m)).2 ⟨m, rfl, finished_mem _ t _ _ (by simp)⟩⟩

/-- C168: nobody waits for ever for the registry, also after a panic: as long as a call is under way, one of them can go on. -/
theorem C168_goes_on (tr : List (Ev (Op M) (Ret M))) (s : St (Metrics M) (Op M) (Ret M)) (h : Exec registry [] tr s) (t : Nat) (ht : s.th t ≠ .idle) :
    ∃ e s', Step registry s e s' ∧ ∀ u op, e ≠ .call u op :=
  goes_on registry (fun _ h => (nomatch h)) [] tr s h t ht

/-- The order of the list. -/
def listed : Order := ⟨id, fun _ => .refl _⟩

/-- Two goroutines register one name, and a third one looks: one of the two panics, and the mutex is free again. -/
example : finished registry (play registry ⟨([] : Metrics Nat), none, fun _ => .idle⟩
      [.call 0 (.register "hits" (some 1)), .call 1 (.register "hits" (some 2)), .call 2 (.range listed), .go 1, .go 0, .go 1, .go 2, .go 1, .go 1, .go 0, .go 0, .go 0, .go 2, .go 2, .go 2, .go 2]).1 =
    [(.register "hits" (some 2), .ok), (.register "hits" (some 1), .panic), (.range listed, .seen [("hits", some 2)])] := by rfl

/-- C168 (negation): a nil metric does not take its name: the next registration of the name returns too, and replaces it; and it is handed to callbacks, whose call of `Print` panics. -/
theorem C168_nil_violated (name : String) (m : M) : ∃ tr s, Exec registry [] tr s ∧
    finished registry tr = [(.register name none, .ok), (.range listed, .seen [(name, none)]), (.register name (some m), .ok), (.range listed, .seen [(name, some m)])] := by
  refine ⟨_, _, play_exec registry [] [.call 0 (.register name none), .go 0, .go 0, .go 0, .go 0, .call 1 (.range listed), .go 1, .go 1, .go 1, .go 1,
    .call 0 (.register name (some m)), .go 0, .go 0, .go 0, .go 0, .call 1 (.range listed), .go 1, .go 1, .go 1, .go 1], ?_⟩
  simp [play, next, registry, code, copy, finished, put, set, listed]

end Verif.Prom.Reg

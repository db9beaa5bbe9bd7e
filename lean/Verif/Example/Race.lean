import Verif.Example.Model
/-!
# Requests of the example application at the same time (C130)

`Set.Do` (example/example.go L44-48) reads the map of the store, then writes it, without taking the lock. Each access is two steps here, its begin and its
end. As in Go's runtime, an access that begins during a write ends the program, except reading from an empty map; other
races are not noticed.
-/
set_option autoImplicit false
namespace Verif.Example.Race
open Verif.Strconv Verif.Enc

variable {V : Type}

/-- How far a request is; `prev` is what it read. example/example.go L45-46. -/
inductive Pc (V : Type) where
  | start
  | reading
  | read (prev : Option V)
  | writing (prev : Option V)
  | done (prev : Option V)
deriving DecidableEq

/-- A request: example/example.go L39-41. -/
structure Req (V : Type) where
  key : Str
  value : V

/-- The state: the map, whether it is being written to, whether the program was ended, and the requests' progress. example/example.go L10-13, L44-48. -/
structure St (V : Type) where
  store : List (Str × V)
  writing : Bool := false
  fatal : Bool := false
  pc : Nat → Pc V := fun _ => .start

/-- The steps of request `i`. example/example.go L45-46. -/
inductive Act where
  | beginRead (i : Nat)
  | endRead (i : Nat)
  | beginWrite (i : Nat)
  | endWrite (i : Nat)
deriving DecidableEq

/-- A request goes on. example/example.go L44-48. -/
def St.put (s : St V) (i : Nat) (p : Pc V) : St V := { s with pc := fun j => if j = i then p else s.pc j }

/-- One step; nothing happens once the program was ended. example/example.go L45-46. -/
def step (reqs : Nat → Req V) (s : St V) : Act → Option (St V)
  | .beginRead i =>
    if s.fatal then none
    else match s.pc i with
      | .start => if s.writing && !s.store.isEmpty then some { s with fatal := true } else some (s.put i .reading)
      | _ => none
  | .endRead i =>
    if s.fatal then none
    else match s.pc i with
      | .reading => some (s.put i (.read (lookupKey (reqs i).key s.store)))
      | _ => none
  | .beginWrite i =>
    if s.fatal then none
    else match s.pc i with
      | .read p => if s.writing then some { s with fatal := true } else some { s.put i (.writing p) with writing := true }
      | _ => none
  | .endWrite i =>
    if s.fatal then none
    else match s.pc i with
      | .writing p => some { s.put i (.done p) with writing := false, store := insertKey (reqs i).key (reqs i).value s.store }
      | _ => none

/-- Several steps. example/example.go L44-48. -/
def run (reqs : Nat → Req V) : List Act → St V → Option (St V)
  | [], s => some s
  | a :: l, s => (step reqs s a).bind (run reqs l)

/-- A request on its own. -/
def whole (i : Nat) : List Act := [.beginRead i, .endRead i, .beginWrite i, .endWrite i]

theorem run_append (reqs : Nat → Req V) : ∀ (l m : List Act) (s : St V), run reqs (l ++ m) s = (run reqs l s).bind (run reqs m)
  | [], _, _ => rfl
  | a :: l, m, s => by
    show (step reqs s a).bind _ = ((step reqs s a).bind _).bind _
    cases step reqs s a with
    | none => rfl
    | some s' => exact run_append reqs l m s'

theorem run_whole (reqs : Nat → Req V) (i : Nat) (s : St V) (hw : s.writing = false) (hf : s.fatal = false) (hp : s.pc i = .start) :
    ∃ s', run reqs (whole i) s = some s' ∧ s'.writing = false ∧ s'.fatal = false ∧ s'.store = insertKey (reqs i).key (reqs i).value s.store ∧
      s'.pc i = .done (lookupKey (reqs i).key s.store) ∧ ∀ j, j ≠ i → s'.pc j = s.pc j := by
  simp only [whole, run, step, hf, hp, hw, Option.bind_some, St.put, if_true, Bool.false_eq_true, if_false, Bool.false_and]
  refine ⟨_, rfl, rfl, rfl, rfl, if_pos rfl, fun j hj => ?_⟩
  simp [hj]

/-- The map after the requests, one after another. -/
def applied (reqs : Nat → Req V) : List Nat → List (Str × V) → List (Str × V)
  | [], m => m
  | i :: l, m => applied reqs l (insertKey (reqs i).key (reqs i).value m)

/-- Requests that do not overlap are safe: the program is not ended, each is told what the ones before it left, and all are in the store. -/
theorem C130_serial_partial (reqs : Nat → Req V) (m : List (Str × V)) : ∀ (l : List Nat), l.Nodup →
    ∃ s, run reqs (l.flatMap whole) { store := m } = some s ∧ s.fatal = false ∧ s.store = applied reqs l m ∧
      ∀ i before after, l = before ++ i :: after → s.pc i = .done (lookupKey (reqs i).key (applied reqs before m)) := by
  have key : ∀ (l : List Nat) (s : St V), l.Nodup → s.writing = false → s.fatal = false → (∀ i ∈ l, s.pc i = .start) →
      ∃ s', run reqs (l.flatMap whole) s = some s' ∧ s'.fatal = false ∧ s'.store = applied reqs l s.store ∧ (∀ j, j ∉ l → s'.pc j = s.pc j) ∧
        ∀ i before after, l = before ++ i :: after → s'.pc i = .done (lookupKey (reqs i).key (applied reqs before s.store)) := by
    intro l
    induction l with
    | nil =>
      intro s _ _ hf _
      exact ⟨s, rfl, hf, rfl, fun _ _ => rfl, fun i b a h => by cases b <;> cases h⟩
    | cons i l ih =>
      intro s hn hw hf hs
      rw [List.nodup_cons] at hn
      obtain ⟨s1, h1, h2, h3, h4, h5, h6⟩ := run_whole reqs i s hw hf (hs i (List.mem_cons_self ..))
      obtain ⟨s2, k1, k2, k3, k4, k5⟩ := ih s1 hn.2 h2 h3 fun j hj => by
        rw [h6 j fun h => hn.1 (h ▸ hj)]; exact hs j (List.mem_cons_of_mem _ hj)
      refine ⟨s2, ?_, k2, by rw [k3, h4]; rfl, ?_, ?_⟩
      · rw [List.flatMap_cons, run_append, h1]; exact k1
      · intro j hj
        rw [List.mem_cons, not_or] at hj
        rw [k4 j hj.2, h6 j hj.1]
      · intro j before after h
        cases before with
        | nil =>
          injection h with h _
          subst h
          rw [k4 i hn.1, h5]; rfl
        | cons b before =>
          injection h with h h'
          subst h
          rw [k5 j before after h', h4]; rfl
  intro l hn
  obtain ⟨s, h1, h2, h3, _, h5⟩ := key l { store := m } hn rfl rfl (fun _ _ => rfl)
  exact ⟨s, h1, h2, h3, h5⟩

/-- C130 is violated: any two requests at the same time can end the program. -/
theorem C130_race_violated (reqs : Nat → Req V) (m : List (Str × V)) (i j : Nat) (hij : i ≠ j) :
    ∃ l s, run reqs l { store := m } = some s ∧ s.fatal = true := by
  refine ⟨[.beginRead i, .endRead i, .beginRead j, .endRead j, .beginWrite i, .beginWrite j], ?_⟩
  have hji : j ≠ i := Ne.symm hij
  simp [run, step, St.put, hji, hij]

/-- C130 is violated: reading while another request writes ends the program too, once something is stored. -/
theorem C130_reader_violated (reqs : Nat → Req V) (e : Str × V) (m : List (Str × V)) (i j : Nat) (hij : i ≠ j) :
    ∃ s, run reqs [.beginRead i, .endRead i, .beginWrite i, .beginRead j] { store := e :: m } = some s ∧ s.fatal = true := by
  have hji : j ≠ i := Ne.symm hij
  simp [run, step, St.put, hji]

/-- C130 is violated: of two requests that set the same key at the same time, even if the program survives, one value can be lost without anybody being told
of it: both are told the value before, and only the second is in the store. -/
theorem C130_lost_violated (reqs : Nat → Req V) (m : List (Str × V)) (i j : Nat) (hij : i ≠ j) (hk : (reqs i).key = (reqs j).key) :
    ∃ l s, run reqs l { store := m } = some s ∧ s.fatal = false ∧ s.pc i = .done (lookupKey (reqs i).key m) ∧ s.pc j = .done (lookupKey (reqs i).key m) ∧
      lookupKey (reqs i).key s.store = some (reqs j).value := by
  refine ⟨[.beginRead i, .endRead i, .beginRead j, .endRead j, .beginWrite i, .endWrite i, .beginWrite j, .endWrite j], ?_⟩
  have hji : j ≠ i := Ne.symm hij
  simp only [run, step, St.put, hji, hij, Option.bind_some, if_true, if_false, Bool.false_eq_true, Bool.false_and]
  refine ⟨_, rfl, rfl, ?_, ?_, ?_⟩
  · simp [hij]
  · simp [hk]
  · simp only [lookup_insertKey, hk, if_true]

/-- C130: two requests for the key `a`. -/
example : (run (fun i => ⟨lit "a", i⟩) (whole 1 ++ whole 2) { store := [(lit "a", 7)] }).map (fun s => (s.pc 1, s.pc 2, s.store)) =
    some (.done (some 7), .done (some 1), [(lit "a", 2)]) := by decide +kernel

end Verif.Example.Race

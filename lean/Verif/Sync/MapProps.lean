import Verif.Sync.MapModel
/-!
# Properties of the typed `sync.Map` (C16)
-/
set_option autoImplicit false
set_option linter.unusedSectionVars false
namespace Verif.Sync

variable {K V : Type} [DecidableEq K]

/-- Operations of a client; the specification is a plain partial function `K → Option V`. -/
inductive MOp (K V : Type) where
  | get (k : K)
  | load (k : K)
  | getOrStore (k : K) (v : V)
  | loadOrStore (k : K) (v : V)
  | store (k : K) (v : V)
  | delete (k : K)
  | loadAndDelete (k : K)

/-- What an operation returns: a value and a flag (absent components are `none`). -/
abbrev MRet (V : Type) := Option V × Option Bool

def SMap.step (i : Iface V) (m : SMap K V) : MOp K V → SMap K V × MRet V
  | .get k => (m, (some (m.get i k), none))
  | .load k => (m, (some (m.loadV i k).1, some (m.loadV i k).2))
  | .getOrStore k v => ((m.loadOrStore i k v).1, (some (m.loadOrStore i k v).2.1, none))
  | .loadOrStore k v => ((m.loadOrStore i k v).1, (some (m.loadOrStore i k v).2.1, some (m.loadOrStore i k v).2.2))
  | .store k v => (m.storeV i k v, (none, none))
  | .delete k => (m.remove k, (none, none))
  | .loadAndDelete k => ((m.loadAndDelete i k).1, (some (m.loadAndDelete i k).2.1, some (m.loadAndDelete i k).2.2))

def SMap.run (i : Iface V) (m : SMap K V) : List (MOp K V) → SMap K V × List (MRet V)
  | [] => (m, [])
  | op :: ops => let (m', r) := m.step i op; let (m'', rs) := SMap.run i m' ops; (m'', r :: rs)

def put (m : K → Option V) (k : K) (o : Option V) : K → Option V := fun k' => if k' = k then o else m k'

def specStep (zero : V) (m : K → Option V) : MOp K V → (K → Option V) × MRet V
  | .get k => (m, (some ((m k).getD zero), none))
  | .load k => (m, (some ((m k).getD zero), some (m k).isSome))
  | .getOrStore k v => (put m k (some ((m k).getD v)), (some ((m k).getD v), none))
  | .loadOrStore k v => (put m k (some ((m k).getD v)), (some ((m k).getD v), some (m k).isSome))
  | .store k v => (put m k (some v), (none, none))
  | .delete k => (put m k none, (none, none))
  | .loadAndDelete k => (put m k none, (some ((m k).getD zero), some (m k).isSome))

def specRun (zero : V) (m : K → Option V) : List (MOp K V) → (K → Option V) × List (MRet V)
  | [] => (m, [])
  | op :: ops => let (m', r) := specStep zero m op; let (m'', rs) := specRun zero m' ops; (m'', r :: rs)

/-- The abstract map a state stands for, and distinctness of keys. -/
structure MRel (i : Iface V) (m : SMap K V) (a : K → Option V) : Prop where
  nodup : (m.map (·.1)).Nodup
  look : ∀ k, (m.load k).map i.back = a k
  vals : ∀ k v, (k, some v) ∈ m → i.isNil v = false
  nils : ∀ k, (k, none) ∈ m → i.isNil i.zero = true

theorem back_toAny (i : Iface V) (v : V) : i.back (i.toAny v) = v := by
  unfold Iface.toAny
  cases h : i.isNil v with
  | true => simp [Iface.back, i.nil_zero v h]
  | false => simp [Iface.back]

theorem load_remove (m : SMap K V) (k k' : K) : (m.remove k).load k' = if k' = k then none else m.load k' := by
  induction m with
  | nil => simp [SMap.remove, SMap.load]
  | cons p m ih =>
    simp only [SMap.remove, SMap.load, List.filter_cons, List.find?_cons] at ih ⊢
    by_cases h1 : p.1 = k <;> by_cases h2 : p.1 = k' <;> by_cases h3 : k' = k <;>
      simp_all

theorem load_store (m : SMap K V) (k k' : K) (v : Option V) : (m.store k v).load k' = if k' = k then some v else m.load k' := by
  by_cases h : k = k'
  · subst h; simp [SMap.store, SMap.load]
  · have h' : k' ≠ k := fun e => h e.symm
    have := load_remove m k k'
    rw [if_neg h'] at this ⊢
    rw [← this]
    simp [SMap.store, SMap.load, h]

theorem nodup_remove (m : SMap K V) (k : K) (h : (m.map (·.1)).Nodup) : ((m.remove k).map (·.1)).Nodup := by
  have : (m.remove k).map (·.1) = (m.map (·.1)).filter (· ≠ k) := by
    simp only [SMap.remove, List.filter_map]; rfl
  rw [this]; exact h.filter _

theorem nodup_store (m : SMap K V) (k : K) (v : Option V) (h : (m.map (·.1)).Nodup) : ((m.store k v).map (·.1)).Nodup := by
  simp only [SMap.store, List.map_cons, List.nodup_cons]
  refine ⟨?_, nodup_remove m k h⟩
  simp [SMap.remove]

theorem rel_remove {i : Iface V} {m : SMap K V} {a : K → Option V} (r : MRel i m a) (k : K) : MRel i (m.remove k) (put a k none) := by
  refine ⟨nodup_remove m k r.nodup, ?_, ?_, ?_⟩
  · intro k'; rw [load_remove]; unfold put; split
    · rfl
    · exact r.look k'
  · intro k' v h; exact r.vals k' v (List.mem_filter.1 h).1
  · intro k' h; exact r.nils k' (List.mem_filter.1 h).1

theorem rel_store {i : Iface V} {m : SMap K V} {a : K → Option V} (r : MRel i m a) (k : K) (v : V) :
    MRel i (m.store k (i.toAny v)) (put a k (some v)) := by
  refine ⟨nodup_store m k _ r.nodup, ?_, ?_, ?_⟩
  · intro k'; rw [load_store]; unfold put; split
    · simp [back_toAny]
    · exact r.look k'
  · intro k' v' h
    simp only [SMap.store, List.mem_cons, Prod.mk.injEq] at h
    rcases h with ⟨_, h⟩ | h
    · unfold Iface.toAny at h
      split at h
      · cases h
      · rename_i hn; injection h with h; rw [h]; simpa using hn
    · exact r.vals k' v' (List.mem_filter.1 h).1
  · intro k' h
    simp only [SMap.store, List.mem_cons, Prod.mk.injEq] at h
    rcases h with ⟨_, h⟩ | h
    · unfold Iface.toAny at h
      split at h
      · rename_i hn; rw [← i.nil_zero v hn]; exact hn
      · cases h
    · exact r.nils k' (List.mem_filter.1 h).1

theorem put_self {a : K → Option V} {k : K} {o : Option V} (h : a k = o) : put a k o = a := by
  funext k'; unfold put; split
  · rename_i hk; rw [hk, h]
  · rfl

theorem mstep_spec {i : Iface V} {m : SMap K V} {a : K → Option V} (r : MRel i m a) (op : MOp K V) :
    (m.step i op).2 = (specStep i.zero a op).2 ∧ MRel i (m.step i op).1 (specStep i.zero a op).1 := by
  have hl := r.look
  cases op with
  | get k =>
    refine ⟨?_, r⟩
    simp only [SMap.step, specStep, SMap.get]
    have := hl k
    cases h : m.load k <;> rw [h] at this <;> simp at this <;> simp [← this]
  | load k =>
    refine ⟨?_, r⟩
    simp only [SMap.step, specStep, SMap.loadV]
    have := hl k
    cases h : m.load k <;> rw [h] at this <;> simp at this <;> simp [← this]
  | getOrStore k v =>
    simp only [SMap.step, specStep, SMap.loadOrStore]
    have := hl k
    cases h : m.load k with
    | none => rw [h] at this; simp at this; simp [← this, back_toAny]; exact rel_store r k v
    | some o =>
      rw [h] at this; simp at this; simp [← this]
      rw [put_self this.symm]; exact r
  | loadOrStore k v =>
    simp only [SMap.step, specStep, SMap.loadOrStore]
    have := hl k
    cases h : m.load k with
    | none => rw [h] at this; simp at this; simp [← this, back_toAny]; exact rel_store r k v
    | some o =>
      rw [h] at this; simp at this; simp [← this]
      rw [put_self this.symm]; exact r
  | store k v => exact ⟨rfl, rel_store r k v⟩
  | delete k => exact ⟨rfl, rel_remove r k⟩
  | loadAndDelete k =>
    simp only [SMap.step, specStep, SMap.loadAndDelete]
    have := hl k
    cases h : m.load k with
    | none =>
      rw [h] at this; simp at this; simp [← this]
      rw [put_self this.symm]; exact r
    | some o =>
      rw [h] at this; simp at this; simp [← this]
      exact rel_remove r k

theorem mrun_spec {i : Iface V} (ops : List (MOp K V)) : ∀ {m : SMap K V} {a : K → Option V}, MRel i m a →
    (m.run i ops).2 = (specRun i.zero a ops).2 ∧ MRel i (m.run i ops).1 (specRun i.zero a ops).1 := by
  induction ops with
  | nil => intro m a r; exact ⟨rfl, r⟩
  | cons op ops ih =>
    intro m a r
    obtain ⟨h1, r1⟩ := mstep_spec r op
    obtain ⟨h2, r2⟩ := ih r1
    exact ⟨by simp only [SMap.run, _root_.Verif.Sync.specRun, h1, h2], r2⟩

theorem rel_empty (i : Iface V) : MRel i ([] : SMap K V) (fun _ => none) := ⟨by simp, fun _ => rfl, by simp, by simp⟩

/-- C16: every sequence of operations returns what a plain map would, including for stored nil interfaces. -/
theorem C16_refines_map (i : Iface V) (ops : List (MOp K V)) :
    (SMap.run i ([] : SMap K V) ops).2 = (specRun i.zero (fun _ => none) ops).2 := (mrun_spec ops (rel_empty i)).1

/-- C16: `IsEmpty` is true iff the plain map has no key. -/
theorem C16_isEmpty (i : Iface V) (ops : List (MOp K V)) :
    (SMap.run i ([] : SMap K V) ops).1.isEmpty = true ↔ ∀ k, (specRun i.zero (fun _ => none) ops).1 k = none := by
  obtain ⟨_, r⟩ := mrun_spec ops (rel_empty (K := K) i)
  generalize (SMap.run i ([] : SMap K V) ops).1 = m at *
  generalize (specRun i.zero (fun _ => none) ops).1 = a at *
  cases m with
  | nil =>
    simp only [SMap.isEmpty, true_iff]
    intro k; have := r.look k; simpa [SMap.load] using this.symm
  | cons p m =>
    simp only [SMap.isEmpty, Bool.false_eq_true, false_iff]
    intro h
    have := r.look p.1
    rw [h p.1] at this
    simp [SMap.load] at this

/-- Iteration with a callback that can stop it. -/
def iter {σ : Type} (f : σ → K → V → σ × Bool) : List (K × V) → σ → σ
  | [], s => s
  | (k, v) :: r, s => if (f s k v).2 then iter f r (f s k v).1 else (f s k v).1

/-- Iteration with a callback that can fail: final state and the first error. -/
def iterErr {σ E : Type} (f : σ → K → V → σ × Option E) : List (K × V) → σ → σ × Option E
  | [], s => (s, none)
  | (k, v) :: r, s => if (f s k v).2.isNone then iterErr f r (f s k v).1 else f s k v

/-- `pairs` lists every binding of the plain map `a` exactly once. -/
def Lists (pairs : List (K × V)) (a : K → Option V) : Prop := (pairs.map (·.1)).Nodup ∧ ∀ k v, (k, v) ∈ pairs ↔ a k = some v

theorem mem_load {m : SMap K V} (h : (m.map (·.1)).Nodup) (k : K) (o : Option V) : (k, o) ∈ m ↔ m.load k = some o := by
  induction m with
  | nil => simp [SMap.load]
  | cons p m ih =>
    obtain ⟨k0, o0⟩ := p
    simp only [List.map_cons, List.nodup_cons] at h
    have ih := ih h.2
    simp only [SMap.load, List.find?_cons, List.mem_cons, Prod.mk.injEq] at ih ⊢
    by_cases hk : k0 = k
    · subst hk
      simp
      constructor
      · rintro (rfl | hm)
        · rfl
        · exact absurd (List.mem_map.2 ⟨_, hm, rfl⟩) h.1
      · rintro rfl; exact Or.inl rfl
    · have hk' : ¬ k = k0 := fun e => hk e.symm
      simp only [hk, hk', false_and, false_or, decide_false]
      exact ih

theorem order_pairs {i : Iface V} {m order : SMap K V} {a : K → Option V} (r : MRel i m a) (hp : order.Perm m)
    (hnil : ∀ k v, a k = some v → i.isNil v = false) : ∃ pairs : List (K × V), Lists pairs a ∧ order = pairs.map (fun p => (p.1, some p.2)) := by
  have hnd : (order.map (·.1)).Nodup := (hp.map _).nodup_iff.2 r.nodup
  have hz : ∀ p ∈ order, ∃ v, p.2 = some v ∧ a p.1 = some v := by
    intro p hpm
    have h1 := hp.mem_iff.1 hpm
    obtain ⟨k, o⟩ := p
    have h2 := (mem_load r.nodup k o).1 h1
    have h3 := r.look k
    rw [h2] at h3; simp at h3
    cases o with
    | some v => exact ⟨v, rfl, h3.symm⟩
    | none =>
      have h4 := hnil k i.zero h3.symm
      rw [r.nils k h1] at h4; cases h4
  refine ⟨order.map (fun p => (p.1, p.2.getD i.zero)), ⟨by simpa [Function.comp_def] using hnd, ?_⟩, ?_⟩
  · intro k v
    simp only [List.mem_map, Prod.mk.injEq]
    constructor
    · rintro ⟨p, hpm, rfl, rfl⟩
      obtain ⟨w, h1, h2⟩ := hz p hpm
      rw [h1]; exact h2
    · intro h
      have h1 := r.look k
      rw [h] at h1
      obtain ⟨o, ho, hb⟩ := Option.map_eq_some_iff.1 h1
      have hm := hp.mem_iff.2 ((mem_load r.nodup k o).2 ho)
      obtain ⟨w, h2, h3⟩ := hz _ hm
      simp only at h2 h3
      rw [h] at h3; injection h3 with h3
      exact ⟨(k, o), hm, rfl, by rw [h2, ← h3]; rfl⟩
  · rw [List.map_map]
    conv => lhs; rw [← List.map_id order]
    apply List.map_congr_left
    intro p hpm
    obtain ⟨w, h1, _⟩ := hz p hpm
    simp only [Function.comp, id, h1, Option.getD_some]
    rw [← h1]

theorem rangeV_pairs {σ : Type} (f : σ → K → V → σ × Bool) : ∀ (pairs : List (K × V)) (s : σ),
    rangeV f (pairs.map (fun p => (p.1, some p.2))) s = .ok (iter f pairs s) := by
  intro pairs
  induction pairs with
  | nil => intro s; rfl
  | cons p pairs ih =>
    intro s; obtain ⟨k, v⟩ := p
    simp only [List.map_cons, rangeV, iter]
    rcases f s k v with ⟨s', _ | _⟩
    · rfl
    · simpa using ih s'

theorem rangeErr_pairs {σ E : Type} (f : σ → K → V → σ × Option E) : ∀ (pairs : List (K × V)) (s : σ),
    rangeErr f (pairs.map (fun p => (p.1, some p.2))) s = .ok (iterErr f pairs s) := by
  intro pairs
  induction pairs with
  | nil => intro s; rfl
  | cons p pairs ih =>
    intro s; obtain ⟨k, v⟩ := p
    have ih := fun s => ih s
    simp only [rangeErr] at ih ⊢
    simp only [List.map_cons, rangeV, iterErr]
    rcases h : f s k v with ⟨s', _ | e⟩
    · simpa using ih s'
    · rfl

/-- C16: when no nil interface is stored, `Range`, in whatever order the runtime chooses, is an iteration over every binding of the
plain map exactly once, stopping when the callback says so. -/
theorem C16_range {σ : Type} (i : Iface V) (ops : List (MOp K V)) (order : SMap K V) (hp : order.Perm (SMap.run i ([] : SMap K V) ops).1)
    (hnil : ∀ k v, (specRun i.zero (fun _ => none) ops).1 k = some v → i.isNil v = false) (f : σ → K → V → σ × Bool) (s : σ) :
    ∃ pairs : List (K × V), Lists pairs (specRun i.zero (fun _ => none) ops).1 ∧ rangeV f order s = .ok (iter f pairs s) := by
  obtain ⟨pairs, h1, rfl⟩ := order_pairs (mrun_spec ops (rel_empty i)).2 hp hnil
  exact ⟨pairs, h1, rangeV_pairs f pairs s⟩

/-- C16: likewise `RangeErr`, which stops at the first error and returns it. -/
theorem C16_rangeErr {σ E : Type} (i : Iface V) (ops : List (MOp K V)) (order : SMap K V) (hp : order.Perm (SMap.run i ([] : SMap K V) ops).1)
    (hnil : ∀ k v, (specRun i.zero (fun _ => none) ops).1 k = some v → i.isNil v = false) (f : σ → K → V → σ × Option E) (s : σ) :
    ∃ pairs : List (K × V), Lists pairs (specRun i.zero (fun _ => none) ops).1 ∧ rangeErr f order s = .ok (iterErr f pairs s) := by
  obtain ⟨pairs, h1, rfl⟩ := order_pairs (mrun_spec ops (rel_empty i)).2 hp hnil
  exact ⟨pairs, h1, rangeErr_pairs f pairs s⟩

theorem iterErr_map (pairs : List (K × V)) : ∀ (m : K → Option V), (pairs.map (·.1)).Nodup →
    iterErr (E := Unit) (fun (m : K → Option V) k v => (fun k' => if k' = k then some v else m k', none)) pairs m =
      (fun k => match pairs.find? (fun p => p.1 = k) with | some p => some p.2 | none => m k, none) := by
  induction pairs with
  | nil => intro m _; rfl
  | cons p pairs ih =>
    intro m h
    obtain ⟨k, v⟩ := p
    simp only [List.map_cons, List.nodup_cons] at h
    simp only [iterErr, Option.isNone_none, if_true]
    rw [ih _ h.2]
    congr 1
    funext k'
    simp only [List.find?_cons]
    by_cases hk : k = k'
    · subst hk
      have : pairs.find? (fun p => decide (p.1 = k)) = none := by
        rw [List.find?_eq_none]
        intro x hx
        have : x.1 ≠ k := fun e => h.1 (List.mem_map.2 ⟨x, hx, e⟩)
        simpa using this
      simp [this]
    · have hk' : ¬ k' = k := fun e => hk e.symm
      simp [hk, hk']

/-- C16: `Map` returns the plain map, when no nil interface is stored. -/
theorem C16_map (i : Iface V) (ops : List (MOp K V)) (order : SMap K V) (hp : order.Perm (SMap.run i ([] : SMap K V) ops).1)
    (hnil : ∀ k v, (specRun i.zero (fun _ => none) ops).1 k = some v → i.isNil v = false) :
    toMap order = .ok (specRun i.zero (fun _ => none) ops).1 := by
  obtain ⟨pairs, ⟨hnd, hm⟩, rfl⟩ := order_pairs (mrun_spec ops (rel_empty i)).2 hp hnil
  simp only [toMap, rangeErr_pairs, bind, Except.bind]
  rw [iterErr_map pairs _ hnd]
  simp only [pure, Except.pure]
  congr 1
  funext k
  cases hf : pairs.find? (fun p => decide (p.1 = k)) with
  | some p =>
    have h1 := List.mem_of_find?_eq_some hf
    have h2 : p.1 = k := by simpa using List.find?_some hf
    simp only
    symm
    rw [← h2]
    exact (hm p.1 p.2).1 h1
  | none =>
    simp only
    cases ha : (specRun i.zero (fun _ => none) ops).1 k with
    | none => rfl
    | some v =>
      have := (hm k v).2 ha
      rw [List.find?_eq_none] at hf
      have := hf _ this
      simp at this

/-- C16: if some stored value is a nil interface, `Map`, and every `Range` whose callback never stops, panic. -/
theorem C16_nil_panics {σ : Type} (i : Iface V) (ops : List (MOp K V)) (order : SMap K V) (hp : order.Perm (SMap.run i ([] : SMap K V) ops).1)
    (k : K) (v : V) (hk : (specRun i.zero (fun _ => none) ops).1 k = some v) (hv : i.isNil v = true)
    (f : σ → K → V → σ × Bool) (hf : ∀ s k v, (f s k v).2 = true) (s : σ) :
    rangeV f order s = .error .typeAssert ∧ toMap order = .error .typeAssert := by
  have r := (mrun_spec ops (rel_empty (K := K) i)).2
  have hmem : (k, none) ∈ order := by
    have h1 := r.look k
    rw [hk] at h1
    obtain ⟨o, ho, hb⟩ := Option.map_eq_some_iff.1 h1
    have h2 := (mem_load r.nodup k o).2 ho
    cases o with
    | none => exact hp.mem_iff.2 h2
    | some w =>
      have h3 := r.vals k w h2
      simp only [Iface.back] at hb
      rw [hb, hv] at h3; cases h3
  have gen : ∀ (τ : Type) (g : τ → K → V → τ × Bool), (∀ s k v, (g s k v).2 = true) → ∀ (l : SMap K V) (s : τ), (k, none) ∈ l →
      rangeV g l s = .error .typeAssert := by
    intro τ g hg l
    induction l with
    | nil => intro s h; simp at h
    | cons p l ih =>
      intro s h
      obtain ⟨k0, o0⟩ := p
      cases o0 with
      | none => rfl
      | some w =>
        simp only [List.mem_cons, Prod.mk.injEq, reduceCtorEq, and_false, false_or] at h
        simp only [rangeV]
        have h1 := hg s k0 w
        rcases hgs : g s k0 w with ⟨s', b⟩
        rw [hgs] at h1; simp only at h1; subst h1
        exact ih s' h
  refine ⟨gen σ f hf order s hmem, ?_⟩
  simp only [toMap, rangeErr]
  rw [gen _ _ (by intros; rfl) order _ hmem]
  rfl

/-! ### concrete cases: values are `Option Nat` seen as an interface type, `none` being nil -/

def optIface : Iface (Option Nat) := { zero := none, isNil := fun v => v.isNone, nil_zero := by intro v; cases v <;> simp }

example : (SMap.run optIface [] [.store 1 (some 7), .store 2 none, .load 2, .load 3, .loadAndDelete 1, .loadOrStore 1 (some 8), .get 2]).2 =
    [(none, none), (none, none), (some none, some true), (some none, some false), (some (some 7), some true), (some (some 8), some false),
     (some none, none)] := by decide

example : (toMap (SMap.run optIface [] [.store 1 (some 7), .store 2 none]).1).toOption.isSome = false := by decide

example : (toMap (SMap.run optIface [] [.store 1 (some 7), .store 2 (some 8)]).1).toOption.map (fun m => (m 1, m 2, m 3)) =
    some (some (some 7), some (some 8), none) := by decide

end Verif.Sync

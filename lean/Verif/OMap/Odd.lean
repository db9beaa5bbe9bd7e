import Verif.Caches.Odd
import Verif.OMap.Props
/-!
# Keys that are not equal to themselves (C156): utils.OrderedMap

As in Caches/Odd.lean, keys are equal if they have the same class, and a key without one (`odd`) is equal to nothing.
-/
set_option autoImplicit false
set_option linter.unusedSectionVars false
set_option linter.unusedSimpArgs false
namespace Verif.OMap.Odd
open Verif.Caches.Odd

variable {K C V A : Type} [DecidableEq C]

/-- ordered_map.go L3-6 `OrderedMap`, with the index as a Go map. -/
structure OMap (K V : Type) where
  list : List (Option (K × V))
  byKey : GMap K Nat

/-- Reading `this.list[i].Value`: index panic or nil dereference are possible outcomes. ordered_map.go L24-31. -/
def OMap.at (m : OMap K V) (i : Nat) : Go (K × V) := do
  match ← Go.idx m.list i with
  | none => .error .nilDeref
  | some p => .ok p

/-- ordered_map.go L24-31 `Get`. -/
def OMap.get (cls : K → Option C) (m : OMap K V) (key : K) : Go (Option V) :=
  match look cls m.byKey key with
  | some i => do
    let p ← m.at i
    pure (some p.2)
  | none => .ok none

/-- ordered_map.go L33-45 `Put`. -/
def OMap.put (cls : K → Option C) (m : OMap K V) (key : K) (value : V) : Go (OMap K V × Option V) :=
  match look cls m.byKey key with
  | some i => do
    let p ← m.at i
    let l ← Go.set m.list i (some (p.1, value))
    pure ({ m with list := l }, some p.2)
  | none => .ok ({ list := m.list ++ [some (key, value)], byKey := Caches.Odd.put cls m.byKey key m.list.length }, none)

/-- ordered_map.go L48-58 `Delete`. -/
def OMap.delete (cls : K → Option C) (m : OMap K V) (key : K) : Go (OMap K V × Option V) :=
  match look cls m.byKey key with
  | some i => do
    let p ← m.at i
    let l ← Go.set m.list i none
    pure ({ list := l, byKey := del cls m.byKey key }, some p.2)
  | none => .ok (m, none)

/-- The calls of a client and what each returns: ordered_map.go L24-98. -/
def OMap.step (cls : K → Option C) (m : OMap K V) : Op K V → Go (OMap K V × Ret K V)
  | .get k => do let r ← m.get cls k; pure (m, .entry r)
  | .put k v => do let (m', r) ← m.put cls k v; pure (m', .entry r)
  | .delete k => do let (m', r) ← m.delete cls k; pure (m', .entry r)
  | .len => .ok (m, .len (rangeLoop (E := Unit) (fun n _ _ => (n + 1, none)) m.list 0).1)
  | .keys => .ok (m, .keys (rangeLoop (E := Unit) (fun l k _ => (l ++ [k], none)) m.list []).1)
  | .values => .ok (m, .values (rangeLoop (E := Unit) (fun l _ v => (l ++ [v], none)) m.list []).1)

/-- Calls one after the other: ordered_map.go L24-98. -/
def OMap.run (cls : K → Option C) (m : OMap K V) : List (Op K V) → Go (OMap K V × List (Ret K V))
  | [] => .ok (m, [])
  | op :: ops => do
    let (m', r) ← m.step cls op
    let (m'', rs) ← OMap.run cls m' ops
    pure (m'', r :: rs)

/-! ### Specification: a Go map that lists its entries in the order they were made -/

/-- A call on the entries. -/
def gstep (cls : K → Option C) (l : GMap K V) : Op K V → GMap K V × Ret K V
  | .get k => (l, .entry (look cls l k))
  | .put k v => (Caches.Odd.put cls l k v, .entry (look cls l k))
  | .delete k => (del cls l k, .entry (look cls l k))
  | .len => (l, .len l.length)
  | .keys => (l, .keys (l.map (·.1)))
  | .values => (l, .values (l.map (·.2)))

/-- Calls one after the other. -/
def grun (cls : K → Option C) (l : GMap K V) : List (Op K V) → GMap K V × List (Ret K V)
  | [] => (l, [])
  | op :: ops =>
    let (l', r) := gstep cls l op
    let (l'', rs) := grun cls l' ops
    (l'', r :: rs)

/-! ### Refinement -/

/-- The slots hold the entries, and the index has, for each class, the slot with a key of the class. -/
structure Rel (cls : K → Option C) (m : OMap K V) (l : GMap K V) : Prop where
  live : m.list.filterMap id = l
  index : ∀ c i, lookC cls m.byKey c = some i ↔ ∃ p, m.list[i]? = some (some p) ∧ cls p.1 = some c

theorem Rel.uniq {cls : K → Option C} {m : OMap K V} {l : GMap K V} (h : Rel cls m l) {i j : Nat} {p q : K × V} {c : C}
    (hi : m.list[i]? = some (some p)) (hj : m.list[j]? = some (some q)) (hp : cls p.1 = some c) (hq : cls q.1 = some c) : i = j := by
  have a := (h.index c i).2 ⟨p, hi, hp⟩
  have b := (h.index c j).2 ⟨q, hj, hq⟩
  rw [a] at b
  cases b
  rfl

/-- Looking up a class in the entries. -/
theorem Rel.lookC {cls : K → Option C} {m : OMap K V} {l : GMap K V} (h : Rel cls m l) (c : C) :
    lookC cls l c = (lookC cls m.byKey c).bind fun i => (m.list[i]?.bind id).map (·.2) := by
  cases hi : Caches.Odd.lookC cls m.byKey c with
  | none =>
    simp only [Option.bind_none]
    unfold Caches.Odd.lookC
    rw [List.find?_eq_none.2, Option.map_none]
    intro p hp hc
    rw [← h.live] at hp
    obtain ⟨s, hs, hsp⟩ := List.mem_filterMap.1 hp
    simp only [id] at hsp
    subst hsp
    obtain ⟨i, hi'⟩ := List.mem_iff_getElem?.1 hs
    rw [(h.index c i).2 ⟨p, hi', of_decide_eq_true hc⟩] at hi
    cases hi
  | some i =>
    obtain ⟨p, hp, hc⟩ := (h.index c i).1 hi
    simp only [Option.bind_some, hp, id, Option.map_some]
    unfold Caches.Odd.lookC
    cases hf : l.find? fun p => decide (cls p.1 = some c) with
    | none =>
      rw [List.find?_eq_none] at hf
      refine absurd (decide_eq_true hc) (hf p ?_)
      rw [← h.live]
      exact List.mem_filterMap.2 ⟨some p, List.mem_iff_getElem?.2 ⟨i, hp⟩, rfl⟩
    | some q =>
      have hqc : cls q.1 = some c := of_decide_eq_true (List.find?_some (p := fun p : K × V => decide (cls p.1 = some c)) hf)
      have hq := List.mem_of_find?_eq_some hf
      rw [← h.live] at hq
      obtain ⟨s, hs, hsp⟩ := List.mem_filterMap.1 hq
      simp only [id] at hsp
      subst hsp
      obtain ⟨j, hj⟩ := List.mem_iff_getElem?.1 hs
      have := h.uniq hp hj hc hqc
      subst this
      rw [hp] at hj
      cases hj
      rfl

theorem Rel.look {cls : K → Option C} {m : OMap K V} {l : GMap K V} (h : Rel cls m l) (k : K) :
    look cls l k = (look cls m.byKey k).bind fun i => (m.list[i]?.bind id).map (·.2) := by
  cases hk : cls k with
  | none => rw [look_odd hk, look_odd hk]; rfl
  | some c => rw [look_some hk, look_some hk]; exact h.lookC c

theorem Rel.at {cls : K → Option C} {m : OMap K V} {l : GMap K V} (h : Rel cls m l) {k : K} {i : Nat} (hi : Caches.Odd.look cls m.byKey k = some i) :
    ∃ c p, cls k = some c ∧ m.list[i]? = some (some p) ∧ cls p.1 = some c ∧ m.at i = .ok p ∧ Caches.Odd.look cls l k = some p.2 := by
  cases hk : cls k with
  | none => rw [look_odd hk] at hi; cases hi
  | some c =>
    have hl := h.look k
    rw [hi] at hl
    rw [look_some hk] at hi
    obtain ⟨p, hp, hc⟩ := (h.index c i).1 hi
    refine ⟨c, p, rfl, hp, hc, ?_, ?_⟩
    · unfold OMap.at
      rw [idx_of (Int.natCast_nonneg i) (by simpa using hp)]
      rfl
    · rw [hl]; simp [hp]

theorem set_map {α : Type} {l : List α} {i : Nat} {x a : α} {g : α → α} (hi : l[i]? = some a) (hx : g a = x)
    (hg : ∀ j b, j ≠ i → l[j]? = some b → g b = b) : l.set i x = l.map g := by
  apply List.ext_getElem?
  intro j
  rw [List.getElem?_map, List.getElem?_set]
  by_cases h : i = j
  · subst h
    rw [if_pos rfl, hi]
    have : i < l.length := by
      rcases Nat.lt_or_ge i l.length with hlt | hge
      · exact hlt
      · rw [List.getElem?_eq_none hge] at hi; cases hi
    rw [if_pos this, Option.map_some, hx]
  · rw [if_neg h]
    cases hj : l[j]? with
    | none => rfl
    | some b => rw [Option.map_some, hg j b (fun e => h e.symm) hj]

theorem rel_put {cls : K → Option C} {m : OMap K V} {l : GMap K V} (h : Rel cls m l) (k : K) (v : V) :
    ∃ m', m.put cls k v = .ok (m', Caches.Odd.look cls l k) ∧ Rel cls m' (Caches.Odd.put cls l k v) := by
  unfold OMap.put
  cases hi : Caches.Odd.look cls m.byKey k with
  | none =>
    refine ⟨_, by rw [h.look, hi]; rfl, ?_⟩
    have hl : Caches.Odd.look cls l k = none := by rw [h.look, hi]; rfl
    have hput : Caches.Odd.put cls l k v = l ++ [(k, v)] := by
      unfold Caches.Odd.put
      rw [if_neg]
      intro ha
      obtain ⟨p, hp, hs⟩ := List.any_eq_true.1 ha
      unfold Caches.Odd.look at hl
      rw [Option.map_eq_none_iff, List.find?_eq_none] at hl
      exact hl p hp hs
    refine ⟨?_, ?_⟩
    · rw [hput]; simp [h.live]
    · intro c i
      rw [lookC_put]
      by_cases hk : cls k = some c
      · rw [if_pos hk]
        rw [look_some hk] at hi
        constructor
        · intro e; cases e; exact ⟨(k, v), by simp, hk⟩
        · rintro ⟨p, hp, hc⟩
          rw [List.getElem?_append] at hp
          split at hp
          · rw [(h.index c i).2 ⟨p, hp, hc⟩] at hi; cases hi
          · next hlt =>
            have : i - m.list.length = 0 := by
              rcases Nat.eq_zero_or_pos (i - m.list.length) with h0 | h0
              · exact h0
              · rw [List.getElem?_eq_none (by simp; omega)] at hp; cases hp
            congr 1
            omega
      · rw [if_neg hk, h.index c i]
        constructor
        · rintro ⟨p, hp, hc⟩
          refine ⟨p, ?_, hc⟩
          rw [List.getElem?_append, if_pos, hp]
          rcases Nat.lt_or_ge i m.list.length with hlt | hge
          · exact hlt
          · rw [List.getElem?_eq_none hge] at hp; cases hp
        · rintro ⟨p, hp, hc⟩
          rw [List.getElem?_append] at hp
          split at hp
          · exact ⟨p, hp, hc⟩
          · next hlt =>
            have : i - m.list.length = 0 := by
              rcases Nat.eq_zero_or_pos (i - m.list.length) with h0 | h0
              · exact h0
              · rw [List.getElem?_eq_none (by simp; omega)] at hp; cases hp
            rw [this] at hp
            simp at hp
            subst hp
            exact absurd hc hk
  | some i =>
    obtain ⟨c, p, hk, hp, hc, hat, hl⟩ := h.at hi
    have hlt : i < m.list.length := by
      rcases Nat.lt_or_ge i m.list.length with hlt | hge
      · exact hlt
      · rw [List.getElem?_eq_none hge] at hp; cases hp
    simp only [hat, bind, Except.bind]
    unfold Go.set
    rw [if_pos ⟨by omega, by omega⟩]
    refine ⟨_, by rw [hl]; rfl, ?_, ?_⟩
    · simp only [Int.toNat_natCast]
      rw [set_map (g := fun s => s.map fun q => if same cls q.1 k then (q.1, v) else q) hp]
      · have hany : (l.any fun q => same cls q.1 k) = true := by
          refine List.any_eq_true.2 ⟨p, ?_, by rw [same_cls hk]; exact decide_eq_true hc⟩
          rw [← h.live]
          exact List.mem_filterMap.2 ⟨some p, List.mem_iff_getElem?.2 ⟨i, hp⟩, rfl⟩
        unfold Caches.Odd.put
        rw [if_pos hany, ← h.live, List.filterMap_map, List.map_filterMap]
        rfl
      · simp [same_cls hk, hc]
      · intro j b hj hb
        cases b with
        | none => rfl
        | some q =>
          have : ¬ cls q.1 = some c := fun hq => hj (h.uniq hb hp hq hc)
          simp [same_cls hk, this]
    · intro c' j
      rw [h.index c' j]
      simp only [Int.toNat_natCast]
      by_cases hj : i = j
      · subst hj
        rw [List.getElem?_set_self hlt, hp]
        constructor
        · rintro ⟨q, hq, hqc⟩; cases hq; exact ⟨_, rfl, hqc⟩
        · rintro ⟨q, hq, hqc⟩; cases hq; exact ⟨_, rfl, hqc⟩
      · rw [List.getElem?_set_ne hj]

theorem rel_delete {cls : K → Option C} {m : OMap K V} {l : GMap K V} (h : Rel cls m l) (k : K) :
    ∃ m', m.delete cls k = .ok (m', Caches.Odd.look cls l k) ∧ Rel cls m' (del cls l k) := by
  unfold OMap.delete
  cases hi : Caches.Odd.look cls m.byKey k with
  | none =>
    have hl : Caches.Odd.look cls l k = none := by rw [h.look, hi]; rfl
    refine ⟨m, by rw [hl], ?_⟩
    have : del cls l k = l := by
      unfold del
      rw [List.filter_eq_self]
      intro p hp
      unfold Caches.Odd.look at hl
      rw [Option.map_eq_none_iff, List.find?_eq_none] at hl
      simpa using hl p hp
    rw [this]
    exact h
  | some i =>
    obtain ⟨c, p, hk, hp, hc, hat, hl⟩ := h.at hi
    have hlt : i < m.list.length := by
      rcases Nat.lt_or_ge i m.list.length with hlt | hge
      · exact hlt
      · rw [List.getElem?_eq_none hge] at hp; cases hp
    simp only [hat, bind, Except.bind]
    unfold Go.set
    rw [if_pos ⟨by omega, by omega⟩]
    refine ⟨_, by rw [hl]; rfl, ?_, ?_⟩
    · simp only [Int.toNat_natCast]
      rw [set_map (g := fun s => s.filter fun q => !same cls q.1 k) hp]
      · unfold del
        rw [← h.live, List.filterMap_map, List.filter_filterMap]
        congr 1
      · simp [same_cls hk, hc]
      · intro j b hj hb
        cases b with
        | none => rfl
        | some q =>
          have : ¬ cls q.1 = some c := fun hq => hj (h.uniq hb hp hq hc)
          simp [same_cls hk, this]
    · intro c' j
      simp only [Int.toNat_natCast]
      rw [lookC_del, hk]
      by_cases hcc : c = c'
      · subst hcc
        rw [if_pos rfl]
        constructor
        · intro e; cases e
        · rintro ⟨q, hq, hqc⟩
          by_cases hj : i = j
          · subst hj; rw [List.getElem?_set_self hlt] at hq; cases hq
          · rw [List.getElem?_set_ne hj] at hq
            exact absurd (h.uniq hp hq hc hqc) hj
      · rw [if_neg (by simpa using hcc), h.index c' j]
        by_cases hj : i = j
        · subst hj
          rw [List.getElem?_set_self hlt, hp]
          constructor
          · rintro ⟨q, hq, hqc⟩; cases hq; rw [hc] at hqc; cases hqc; exact absurd rfl hcc
          · rintro ⟨q, hq, _⟩; cases hq
        · rw [List.getElem?_set_ne hj]

/-- A `Range` that goes to the end calls its function on the live entries. -/
theorem loop_live {σ : Type} (g : σ → K → V → σ) : ∀ (s : List (Option (K × V))) (x : σ),
    (rangeLoop (E := Unit) (fun x k v => (g x k v, none)) s x).1 = (s.filterMap id).foldl (fun x p => g x p.1 p.2) x
  | [], _ => rfl
  | none :: s, x => by simpa [rangeLoop] using loop_live g s x
  | some (k, v) :: s, x => by simpa [rangeLoop] using loop_live g s (g x k v)

theorem rel_step {cls : K → Option C} {m : OMap K V} {l : GMap K V} (h : Rel cls m l) (op : Op K V) :
    ∃ m', m.step cls op = .ok (m', (gstep cls l op).2) ∧ Rel cls m' (gstep cls l op).1 := by
  cases op with
  | get k =>
    refine ⟨m, ?_, h⟩
    simp only [OMap.step, gstep, OMap.get]
    cases hi : Caches.Odd.look cls m.byKey k with
    | none => rw [h.look, hi]; rfl
    | some i =>
      obtain ⟨c, p, hk, hp, hc, hat, hl⟩ := h.at hi
      simp only [hat, hl]
      rfl
  | put k v =>
    obtain ⟨m', h1, h2⟩ := rel_put h k v
    exact ⟨m', by simp only [OMap.step, h1]; rfl, h2⟩
  | delete k =>
    obtain ⟨m', h1, h2⟩ := rel_delete h k
    exact ⟨m', by simp only [OMap.step, h1]; rfl, h2⟩
  | len =>
    refine ⟨m, ?_, h⟩
    simp only [OMap.step, gstep]
    rw [loop_live (fun n _ _ => n + 1), h.live]
    have : ∀ (l : List (K × V)) (n : Nat), l.foldl (fun n _ => n + 1) n = n + l.length := by
      intro l
      induction l with
      | nil => intro n; rfl
      | cons p l ih => intro n; simp only [List.foldl_cons, List.length_cons, ih]; omega
    rw [this]
    simp
  | keys =>
    refine ⟨m, ?_, h⟩
    simp only [OMap.step, gstep]
    rw [loop_live (fun l k _ => l ++ [k]), h.live]
    have : ∀ (l : List (K × V)) (a : List K), l.foldl (fun a p => a ++ [p.1]) a = a ++ l.map (·.1) := by
      intro l
      induction l with
      | nil => intro n; simp
      | cons p l ih => intro n; simp [ih]
    rw [this]
    rfl
  | values =>
    refine ⟨m, ?_, h⟩
    simp only [OMap.step, gstep]
    rw [loop_live (fun l _ v => l ++ [v]), h.live]
    have : ∀ (l : List (K × V)) (a : List V), l.foldl (fun a p => a ++ [p.2]) a = a ++ l.map (·.2) := by
      intro l
      induction l with
      | nil => intro n; simp
      | cons p l ih => intro n; simp [ih]
    rw [this]
    rfl

/-- C156: with any keys, the calls on a new ordered map return, without panicking, what a Go map returns that lists its entries in
the order they were made. -/
theorem C156_omap_answers (cls : K → Option C) (ops : List (Op K V)) :
    ∃ m, OMap.run cls ⟨[], []⟩ ops = .ok (m, (grun cls [] ops).2) := by
  have gen : ∀ (ops : List (Op K V)) (m : OMap K V) (l : GMap K V), Rel cls m l → ∃ m', m.run cls ops = .ok (m', (grun cls l ops).2) := by
    intro ops
    induction ops with
    | nil => intro m l _; exact ⟨m, rfl⟩
    | cons op ops ih =>
      intro m l h
      obtain ⟨m', h1, h2⟩ := rel_step h op
      obtain ⟨m'', h3⟩ := ih m' _ h2
      refine ⟨m'', ?_⟩
      unfold OMap.run
      rw [h1]
      simp only [bind, Except.bind]
      rw [h3]
      rfl
  exact gen ops _ [] ⟨rfl, fun c i => by simp [Caches.Odd.lookC]⟩

/-- C156: what was put under a key equal to itself is found and removed by every key equal to it, whatever other keys are in the map:
putting and deleting change what is found for the keys of this class, and nothing else.
What is missing: for odd keys it is not, see `C156_omap_violated`. -/
theorem C156_omap_found_partial (cls : K → Option C) (l : GMap K V) (k k' : K) (hk : (cls k).isSome) (v : V) :
    look cls (gstep cls l (.put k v)).1 k' = (if cls k' = cls k then some v else look cls l k') ∧
    look cls (gstep cls l (.delete k)).1 k' = (if cls k' = cls k then none else look cls l k') := by
  cases hc : cls k with
  | none => rw [hc] at hk; cases hk
  | some c =>
    simp only [gstep]
    cases hc' : cls k' with
    | none => rw [look_odd hc', look_odd hc', look_odd hc']; simp
    | some c' =>
      rw [look_some hc', look_some hc', look_some hc', lookC_put, lookC_del, hc]
      simp only [Option.some.injEq, eq_comm, and_self]

/-- C156 (negation): what is put under an odd key can be listed but not found, replaced or removed: `n` times putting, reading and
deleting it answer "not found" each time and leave `n` entries. -/
theorem C156_omap_violated (cls : K → Option C) (k : K) (hk : cls k = none) (v : V) (n : Nat) :
    ∃ m, OMap.run cls ⟨[], []⟩ ((List.replicate n [Op.put k v, .get k, .delete k]).flatten ++ [.keys]) =
      .ok (m, List.replicate (3 * n) (.entry none) ++ [.keys (List.replicate n k)]) := by
  obtain ⟨m, h⟩ := C156_omap_answers cls ((List.replicate n [Op.put k v, .get k, .delete k]).flatten ++ [.keys])
  refine ⟨m, ?_⟩
  rw [h]
  have gen : ∀ (n : Nat) (l : GMap K V), (grun cls l ((List.replicate n [Op.put k v, .get k, .delete k]).flatten ++ [.keys])).2 =
      List.replicate (3 * n) (.entry none) ++ [.keys (l.map (·.1) ++ List.replicate n k)] := by
    intro n
    induction n with
    | zero => intro l; simp [grun, gstep]
    | succ n ih =>
      intro l
      rw [List.replicate_succ, List.flatten_cons]
      simp only [List.cons_append, List.nil_append, grun, gstep, put_odd hk, look_odd hk, del_odd hk]
      rw [ih]
      rw [show 3 * (n + 1) = 3 * n + 1 + 1 + 1 by omega]
      simp [List.replicate_succ]
  rw [gen n []]
  rfl

/-- A call that puts a value under an odd key. -/
def putsOdd (cls : K → Option C) : Op K V → Bool
  | .put k _ => (cls k).isNone
  | _ => false

/-- C156: neither the index nor the slots ever lose what was put under an odd key. -/
theorem C156_omap_kept (cls : K → Option C) (ops : List (Op K V)) (m : OMap K V) (rs : List (Ret K V)) (h : OMap.run cls ⟨[], []⟩ ops = .ok (m, rs)) :
    (m.byKey.filter fun p => (cls p.1).isNone).length = (ops.filter (putsOdd cls)).length := by
  have gen : ∀ (ops : List (Op K V)) (m m' : OMap K V) (rs : List (Ret K V)), m.run cls ops = .ok (m', rs) →
      (odds cls m'.byKey).length = (odds cls m.byKey).length + (ops.filter (putsOdd cls)).length := by
    intro ops
    induction ops with
    | nil => intro m m' rs h; cases h; rfl
    | cons op ops ih =>
      intro m m' rs h
      unfold OMap.run at h
      obtain ⟨⟨x, r⟩, hx, h⟩ := bind_ok h
      obtain ⟨⟨y, rs'⟩, hy, h⟩ := bind_ok h
      cases h
      rw [ih _ _ _ hy, List.filter_cons]
      have : (odds cls x.byKey).length = (odds cls m.byKey).length + if putsOdd cls op = true then 1 else 0 := by
        cases op with
        | get k =>
          obtain ⟨a, _, hx⟩ := bind_ok hx
          cases hx
          rfl
        | put k v =>
          obtain ⟨⟨a, b⟩, ha, hx⟩ := bind_ok hx
          cases hx
          unfold OMap.put at ha
          split at ha
          · next i hi =>
            obtain ⟨p, _, ha⟩ := bind_ok ha
            obtain ⟨l, _, ha⟩ := bind_ok ha
            cases ha
            cases hk : cls k with
            | none => rw [look_odd hk] at hi; cases hi
            | some c => simp [putsOdd, hk]
          · cases ha
            simp only [odds_put, putsOdd]
            by_cases hk : cls k = none <;> simp [hk]
        | delete k =>
          obtain ⟨⟨a, b⟩, ha, hx⟩ := bind_ok hx
          cases hx
          unfold OMap.delete at ha
          split at ha
          · obtain ⟨p, _, ha⟩ := bind_ok ha
            obtain ⟨l, _, ha⟩ := bind_ok ha
            cases ha
            simp [odds_del, putsOdd]
          · cases ha; rfl
        | len => cases hx; rfl
        | keys => cases hx; rfl
        | values => cases hx; rfl
      rw [this]
      split <;> simp <;> omega
  have := gen ops _ m rs h
  simpa [odds] using this

example : (OMap.run num ⟨[], []⟩ [.put (some 1) 10, .put none 20, .put (some 2) 30, .put none 21, .delete none, .put (some 1) 11, .delete (some 2), .get none, .get (some 1), .keys, .values,
      .len]).toOption.map (·.2) =
    some [.entry none, .entry none, .entry none, .entry none, .entry none, .entry (some 10), .entry (some 30), .entry none, .entry (some 11),
      .keys [some 1, none, none], .values [11, 20, 21], .len 3] := by decide

end Verif.OMap.Odd

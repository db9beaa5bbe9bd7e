import Verif.OMap.Props
/-!
# An ordered map that changes while it is ranged over (utils/ordered_map.go L33-71)

`Range` is a loop over `this.list`, which is evaluated once (L61): it has the elements of the array the map had when it began. The callback may change the map. As long as the map keeps its array, the loop sees what
`Delete` writes there (L54); when `append` (L41) needs a larger array, the loop stays on the old one. Slots of both arrays at one index lead to one pair, as long as both are not nil, so a new value (L37) is seen in both.
-/
set_option autoImplicit false
set_option linter.unusedSectionVars false
namespace Verif.OMap.Reenter
open Verif.OMap

variable {K V σ E : Type} [DecidableEq K]

/-- What a callback may do to the map: `Put` (L33-45) and `Delete` (L48-58). -/
inductive Chg (K V : Type) where
  | put (k : K) (v : V)
  | del (k : K)
  deriving DecidableEq

/-- A map while it is ranged over: the capacity of its array, the slots the loop runs over, and whether they are still in the array of the map. L3-6, L60-61. -/
structure St (K V : Type) where
  m : OrderedMap K V
  cap : Nat
  seen : List (Option (K × V))
  same : Bool

/-- `append` (L41): a full array is replaced by one of the capacity that the runtime chooses. -/
def room (grow : Nat → Nat) (s : St K V) : Nat × Bool :=
  if s.m.list.length < s.cap then (s.cap, s.same) else (grow s.m.list.length, false)

/-- `Put` during `Range`: a new value of a pair is seen through both arrays; a new pair is behind the slots of the loop. L33-45. -/
def put (grow : Nat → Nat) (s : St K V) (k : K) (v : V) : Go (St K V) := do
  let (m, _) ← s.m.put k v
  match s.m.byKey k with
  | some i => pure { s with m := m, seen := s.seen.set i (some (k, v)) }
  | none => pure { s with m := m, cap := (room grow s).1, same := (room grow s).2 }

/-- `Delete` during `Range`: the slot of the present array becomes nil. L48-58. -/
def del (s : St K V) (k : K) : Go (St K V) := do
  let (m, _) ← s.m.delete k
  match s.m.byKey k with
  | some i => pure { s with m := m, seen := if s.same then s.seen.set i none else s.seen }
  | none => pure { s with m := m }

/-- The changes of one call of the callback. L65. -/
def chgs (grow : Nat → Nat) : List (Chg K V) → St K V → Go (St K V)
  | [], s => .ok s
  | .put k v :: cs, s => do let s ← put grow s k v; chgs grow cs s
  | .del k :: cs, s => do let s ← del s k; chgs grow cs s

/-- A callback: from its own state, the pair and all that it can read from the map it makes changes and returns an error or nil. L60, L65. -/
abbrev Callback (σ E K V : Type) := σ → K → V → List (K × V) → σ × List (Chg K V) × Option E

/-- The loop, with the pairs visited: L61-70. Other calls of `Range` within the callback read only; their loops are their own. -/
def loop (grow : Nat → Nat) (f : Callback σ E K V) : List Nat → St K V → σ → Go (St K V × σ × List (K × V) × Option E)
  | [], s, a => .ok (s, a, [], none)
  | i :: is, s, a =>
    match s.seen[i]? with
    | some (some (k, v)) =>
      match f a k v (live s.m.list) with
      | (a', cs, some e) => do
        let s' ← chgs grow cs s
        pure (s', a', [(k, v)], some e)
      | (a', cs, none) => do
        let s' ← chgs grow cs s
        let (s'', a'', t, e) ← loop grow f is s' a'
        pure (s'', a'', (k, v) :: t, e)
    | _ => loop grow f is s a

/-- `Range` of a map whose array has capacity `cap`: L60-71. -/
def range (grow : Nat → Nat) (f : Callback σ E K V) (m : OrderedMap K V) (cap : Nat) (a : σ) : Go (St K V × σ × List (K × V) × Option E) :=
  loop grow f (List.range m.list.length) ⟨m, cap, m.list, true⟩ a

/-! ### specification: the entries there at the beginning, in their order, unless they were deleted -/

/-- Changes of an association list. -/
def achgs : List (Chg K V) → List (K × V) → List (K × V)
  | [], l => l
  | .put k v :: cs, l => achgs cs (aput l k v)
  | .del k :: cs, l => achgs cs (adel l k)

/-- The keys that the changes delete. -/
def gone (cs : List (Chg K V)) (k : K) : Prop := Chg.del k ∈ cs

/-- A walk over keys, some of which (`g`) have been deleted since the beginning: the others are visited with the value they have then. If `late` holds, deleted ones may be visited too, with any value. -/
inductive Walk (f : Callback σ E K V) (late : Prop) : List K → (K → Prop) → List (K × V) → σ → List (K × V) → List (K × V) → σ → Option E → Prop where
  | done {g l a} : Walk f late [] g l a [] l a none
  | skip {k ks g l a t l' a' e} (hg : g k) (hw : Walk f late ks g l a t l' a' e) : Walk f late (k :: ks) g l a t l' a' e
  | stop {k ks g l a v a' cs e} (hv : (¬ g k ∧ aget l k = some v) ∨ (late ∧ g k)) (hf : f a k v l = (a', cs, some e)) :
      Walk f late (k :: ks) g l a [(k, v)] (achgs cs l) a' (some e)
  | visit {k ks g l a v a1 cs t l' a' e} (hv : (¬ g k ∧ aget l k = some v) ∨ (late ∧ g k)) (hf : f a k v l = (a1, cs, none))
      (hw : Walk f late ks (fun x => g x ∨ gone cs x) (achgs cs l) a1 t l' a' e) : Walk f late (k :: ks) g l a ((k, v) :: t) l' a' e

/-! ### proof -/

/-- How the slots of the loop relate to the map: `init` are the slots at the beginning. -/
structure Inv (init : List (Option (K × V))) (s : St K V) (l : List (K × V)) (g : K → Prop) : Prop where
  rel : Rel s.m l
  len : s.seen.length = init.length
  le : init.length ≤ s.m.list.length
  empty : ∀ j : Nat, init[j]? = some none → s.seen[j]? = some none ∧ s.m.list[j]? = some none
  full : ∀ (j : Nat) k v0, init[j]? = some (some (k, v0)) → (¬ g k ∧ ∃ v, s.seen[j]? = some (some (k, v)) ∧ s.m.list[j]? = some (some (k, v))) ∨
    (g k ∧ s.m.list[j]? = some none ∧ (s.seen[j]? = some none ∨ (s.same = false ∧ ∃ v, s.seen[j]? = some (some (k, v)))))
  uniq : ∀ (i j : Nat) k v w, init[i]? = some (some (k, v)) → init[j]? = some (some (k, w)) → i = j

theorem list_set {m : OrderedMap K V} {l : List (K × V)} (r : Rel m l) {k : K} {i : Nat} (h : m.byKey k = some i) (v : V) :
    m.put k v = .ok ({ m with list := m.list.set i (some (k, v)) }, aget l k) ∧
    m.delete k = .ok (⟨m.list.set i none, fun x => if x = k then none else m.byKey x⟩, aget l k) := by
  obtain ⟨m1, h1, -⟩ := put_spec r k v
  obtain ⟨m2, h2, -⟩ := delete_spec r k
  obtain ⟨a, w, b, e, hl, -⟩ := present r h
  have hat := at_present e hl
  have hi : (i : Int) < m.list.length := by rw [e, ← hl]; simp; omega
  constructor
  · rw [h1]
    unfold OrderedMap.put at h1
    simp only [h, hat, bind, Except.bind, Go.set, pure, Except.pure] at h1
    rw [if_pos ⟨by omega, hi⟩] at h1
    simp only [Int.toNat_natCast, Except.ok.injEq, Prod.mk.injEq] at h1
    rw [← h1.1]
  · rw [h2]
    unfold OrderedMap.delete at h2
    simp only [h, hat, bind, Except.bind, Go.set, pure, Except.pure] at h2
    rw [if_pos ⟨by omega, hi⟩] at h2
    simp only [Int.toNat_natCast, Except.ok.injEq, Prod.mk.injEq] at h2
    rw [← h2.1]

theorem put_inv {init : List (Option (K × V))} {s : St K V} {l : List (K × V)} {g : K → Prop} (grow : Nat → Nat) (h : Inv init s l g) (k : K) (v : V) :
    ∃ s', put grow s k v = .ok s' ∧ Inv init s' (aput l k v) g ∧ (s.same = false → s'.same = false) := by
  obtain ⟨m', hm, hr⟩ := put_spec h.rel k v
  cases hk : s.m.byKey k with
  | none =>
    refine ⟨{ s with m := m', cap := (room grow s).1, same := (room grow s).2 }, by simp only [put, hm, hk]; rfl, ?_, ?_⟩
    · have hl : m'.list = s.m.list ++ [some (k, v)] := by
        unfold OrderedMap.put at hm
        simp only [hk, Except.ok.injEq, Prod.mk.injEq] at hm
        rw [← hm.1]
      have hmono : ∀ (j : Nat) o, s.m.list[j]? = some o → m'.list[j]? = some o := by
        intro j o ho
        rw [hl, List.getElem?_append_left (List.getElem?_eq_some_iff.1 ho).1]; exact ho
      constructor
      · exact hr
      · exact h.len
      · rw [hl]; have := h.le; simp; omega
      · intro j hj; exact ⟨(h.empty j hj).1, hmono _ _ (h.empty j hj).2⟩
      · intro j k' v0 hj
        rcases h.full j k' v0 hj with ⟨a, w, b, c⟩ | ⟨a, b, c⟩
        · exact .inl ⟨a, w, b, hmono _ _ c⟩
        · refine .inr ⟨a, hmono _ _ b, c.imp id fun ⟨c, d⟩ => ⟨?_, d⟩⟩
          show (room grow s).2 = false
          unfold room; split <;> simp [c]
      · exact h.uniq
    · intro hs
      show (room grow s).2 = false
      unfold room; split <;> simp [hs]
  | some i =>
    have he := (list_set h.rel hk v).1
    rw [hm] at he
    simp only [Except.ok.injEq, Prod.mk.injEq] at he
    refine ⟨{ s with m := m', seen := s.seen.set i (some (k, v)) }, by simp only [put, hm, hk]; rfl, ?_, id⟩
    have hl : m'.list = s.m.list.set i (some (k, v)) := by rw [he.1]
    obtain ⟨w, hw⟩ := (h.rel.idx k i).1 hk
    have hi := (List.getElem?_eq_some_iff.1 hw).1
    constructor
    · exact hr
    · simpa using h.len
    · rw [hl]; simpa using h.le
    · intro j hj
      obtain ⟨a, b⟩ := h.empty j hj
      have : i ≠ j := by rintro rfl; rw [hw] at b; cases b
      rw [hl]
      simp only [List.getElem?_set_ne this]
      exact ⟨a, b⟩
    · intro j k' v0 hj
      rw [hl]
      by_cases hij : i = j
      · subst hij
        rcases h.full i k' v0 hj with ⟨a, w', b, c⟩ | ⟨a, b, c⟩
        · rw [hw] at c
          simp only [Option.some.injEq, Prod.mk.injEq] at c
          obtain ⟨rfl, -⟩ := c
          have hi' := (List.getElem?_eq_some_iff.1 b).1
          exact .inl ⟨a, v, by simp [hi'], by simp [hi]⟩
        · rw [hw] at b; cases b
      · simp only [List.getElem?_set_ne hij]
        exact h.full j k' v0 hj
    · exact h.uniq

theorem del_inv {init : List (Option (K × V))} {s : St K V} {l : List (K × V)} {g : K → Prop} (h : Inv init s l g) (k : K) :
    ∃ s', del s k = .ok s' ∧ Inv init s' (adel l k) (fun x => g x ∨ x = k) ∧ (s.same = false → s'.same = false) := by
  obtain ⟨m', hm, hr⟩ := delete_spec h.rel k
  cases hk : s.m.byKey k with
  | none =>
    refine ⟨{ s with m := m' }, by simp only [del, hm, hk]; rfl, ?_, id⟩
    have hl : m' = s.m := by
      unfold OrderedMap.delete at hm
      simp only [hk, Except.ok.injEq, Prod.mk.injEq] at hm
      exact hm.1.symm
    subst hl
    refine ⟨hr, h.len, h.le, h.empty, ?_, h.uniq⟩
    intro j k' v0 hj
    rcases h.full j k' v0 hj with ⟨a, w, b, c⟩ | ⟨a, b, c⟩
    · refine .inl ⟨?_, w, b, c⟩
      rintro (hg | rfl)
      · exact a hg
      · rw [(h.rel.idx _ j).2 ⟨w, c⟩] at hk; cases hk
    · exact .inr ⟨.inl a, b, c⟩
  | some i =>
    obtain ⟨w, hw⟩ := (h.rel.idx k i).1 hk
    have he := (list_set h.rel hk w).2
    rw [hm] at he
    simp only [Except.ok.injEq, Prod.mk.injEq] at he
    refine ⟨{ s with m := m', seen := if s.same then s.seen.set i none else s.seen }, by simp only [del, hm, hk]; rfl, ?_, id⟩
    have hl : m'.list = s.m.list.set i none := by rw [he.1]
    have hi := (List.getElem?_eq_some_iff.1 hw).1
    have hne : ∀ j, i ≠ j → (if s.same then s.seen.set i none else s.seen)[j]? = s.seen[j]? := by
      intro j hj; split
      · rw [List.getElem?_set_ne hj]
      · rfl
    constructor
    · exact hr
    · show (if s.same then s.seen.set i none else s.seen).length = _
      rw [← h.len]; split <;> simp
    · rw [hl]; simpa using h.le
    · intro j hj
      obtain ⟨a, b⟩ := h.empty j hj
      have : i ≠ j := by rintro rfl; rw [hw] at b; cases b
      rw [hl, List.getElem?_set_ne this]
      exact ⟨(hne j this).trans a, b⟩
    · intro j k' v0 hj
      rw [hl]
      show (_ ∧ ∃ v, (if s.same then s.seen.set i none else s.seen)[j]? = some (some (k', v)) ∧ _) ∨ (_ ∧ _ ∧
        ((if s.same then s.seen.set i none else s.seen)[j]? = _ ∨ (s.same = false ∧ ∃ v, (if s.same then s.seen.set i none else s.seen)[j]? = some (some (k', v)))))
      by_cases hij : i = j
      · subst hij
        rcases h.full i k' v0 hj with ⟨a, w', b, c⟩ | ⟨a, b, c⟩
        · rw [hw] at c
          simp only [Option.some.injEq, Prod.mk.injEq] at c
          obtain ⟨rfl, -⟩ := c
          have hi' := (List.getElem?_eq_some_iff.1 b).1
          refine .inr ⟨.inr rfl, by simp [hi], ?_⟩
          cases hs : s.same with
          | true => left; simp [hi']
          | false => right; exact ⟨rfl, w', by simpa using b⟩
        · rw [hw] at b; cases b
      · rw [hne j hij, List.getElem?_set_ne hij]
        rcases h.full j k' v0 hj with ⟨a, w', b, c⟩ | ⟨a, b, c⟩
        · refine .inl ⟨?_, w', b, c⟩
          rintro (hg | rfl)
          · exact a hg
          · have := (h.rel.idx _ j).2 ⟨w', c⟩
            rw [hk] at this; exact hij (Option.some.inj this)
        · exact .inr ⟨.inl a, b, c⟩
    · exact h.uniq

theorem Inv.congr {init : List (Option (K × V))} {s : St K V} {l : List (K × V)} {g g' : K → Prop} (h : Inv init s l g) (hg : ∀ x, g x ↔ g' x) : Inv init s l g' := by
  have : g = g' := funext fun x => propext (hg x)
  exact this ▸ h

theorem chgs_inv {init : List (Option (K × V))} (grow : Nat → Nat) : ∀ (cs : List (Chg K V)) (s : St K V) (l : List (K × V)) (g : K → Prop), Inv init s l g →
    ∃ s', chgs grow cs s = .ok s' ∧ Inv init s' (achgs cs l) (fun x => g x ∨ gone cs x) ∧ (s.same = false → s'.same = false)
  | [], s, l, g, h => ⟨s, rfl, h.congr (by simp [gone]), id⟩
  | .put k v :: cs, s, l, g, h => by
    obtain ⟨s1, e1, h1, p1⟩ := put_inv grow h k v
    obtain ⟨s2, e2, h2, p2⟩ := chgs_inv grow cs s1 _ _ h1
    exact ⟨s2, by simp only [chgs, e1, bind, Except.bind, e2], h2.congr (by simp [gone]), fun x => p2 (p1 x)⟩
  | .del k :: cs, s, l, g, h => by
    obtain ⟨s1, e1, h1, p1⟩ := del_inv h k
    obtain ⟨s2, e2, h2, p2⟩ := chgs_inv grow cs s1 _ _ h1
    exact ⟨s2, by simp only [chgs, e1, bind, Except.bind, e2], h2.congr (by simp [gone, or_assoc]), fun x => p2 (p1 x)⟩

theorem Walk.mono {f : Callback σ E K V} {p q : Prop} (hpq : p → q) {ks : List K} {g : K → Prop} {l : List (K × V)} {a : σ} {t l' : List (K × V)} {a' : σ} {e : Option E}
    (h : Walk f p ks g l a t l' a' e) : Walk f q ks g l a t l' a' e := by
  induction h with
  | done => exact .done
  | skip hg _ ih => exact .skip hg ih
  | stop hv hf => exact .stop (hv.imp id (.imp hpq id)) hf
  | visit hv hf _ ih => exact .visit (hv.imp id (.imp hpq id)) hf ih

/-- The keys in the slots with these indices. -/
def keysAt (init : List (Option (K × V))) (is : List Nat) : List K := is.filterMap fun i => (init[i]?.join).map (·.1)

theorem aget_of {m : OrderedMap K V} {l : List (K × V)} (r : Rel m l) {k : K} {v : V} {i : Nat} (h : m.list[i]? = some (some (k, v))) : aget l k = some v := by
  have hk := (r.idx k i).2 ⟨v, h⟩
  have hg := get_spec r k
  have hat : m.at i = .ok (k, v) := by
    obtain ⟨a, w, b, e, hl, -⟩ := present r hk
    have := at_present e hl
    have h2 : m.list[i]? = some (some (k, w)) := by rw [e, ← hl]; simp
    rw [h2] at h
    simp only [Option.some.injEq, Prod.mk.injEq, true_and] at h
    rw [this, h]
  unfold OrderedMap.get at hg
  simp only [hk, hat, bind, Except.bind, pure, Except.pure, Except.ok.injEq] at hg
  exact hg.symm

theorem loop_walk {init : List (Option (K × V))} (grow : Nat → Nat) (f : Callback σ E K V) : ∀ (is : List Nat) (s : St K V) (a : σ) (l : List (K × V)) (g : K → Prop),
    (∀ i ∈ is, i < init.length) → Inv init s l g → ∃ s' a' t e l', loop grow f is s a = .ok (s', a', t, e) ∧ Rel s'.m l' ∧
      Walk f (s'.same = false) (keysAt init is) g l a t l' a' e ∧ (s.same = false → s'.same = false)
  | [], s, a, l, g, _, h => ⟨s, a, [], none, l, rfl, h.rel, .done, id⟩
  | i :: is, s, a, l, g, hb, h => by
    have hb' : ∀ j ∈ is, j < init.length := fun j hj => hb j (List.mem_cons_of_mem _ hj)
    have hi := hb i (List.mem_cons_self ..)
    have hgo : init[i]? = some init[i] := List.getElem?_eq_getElem hi
    cases hin : init[i] with
    | none =>
      rw [hin] at hgo
      obtain ⟨s', a', t, e, l', h1, h2, h3, h4⟩ := loop_walk grow f is s a l g hb' h
      have hs := (h.empty i hgo).1
      refine ⟨s', a', t, e, l', by simp only [loop, hs]; exact h1, h2, ?_, h4⟩
      have : keysAt init (i :: is) = keysAt init is := by simp [keysAt, hgo]
      rw [this]; exact h3
    | some kv =>
      obtain ⟨k, v0⟩ := kv
      rw [hin] at hgo
      have hks : keysAt init (i :: is) = k :: keysAt init is := by simp [keysAt, hgo]
      rw [hks]
      have call : ∀ v, s.seen[i]? = some (some (k, v)) → ((¬ g k ∧ aget l k = some v) ∨ (s.same = false ∧ g k)) →
          ∃ s' a' t e l', loop grow f (i :: is) s a = .ok (s', a', t, e) ∧ Rel s'.m l' ∧
          Walk f (s'.same = false) (k :: keysAt init is) g l a t l' a' e ∧ (s.same = false → s'.same = false) := by
        intro v hv hok
        rcases hf : f a k v l with ⟨a1, cs, _ | e⟩
        · obtain ⟨s1, e1, i1, p1⟩ := chgs_inv grow cs s l g h
          obtain ⟨s', a', t, e, l', h1, h2, h3, h4⟩ := loop_walk grow f is s1 a1 _ _ hb' i1
          refine ⟨s', a', (k, v) :: t, e, l', ?_, h2, .visit (hok.imp id (.imp (fun x => h4 (p1 x)) id)) hf h3, fun x => h4 (p1 x)⟩
          simp only [loop, hv, h.rel.live, hf, e1, h1, bind, Except.bind, pure, Except.pure]
        · obtain ⟨s1, e1, i1, p1⟩ := chgs_inv grow cs s l g h
          refine ⟨s1, a1, [(k, v)], some e, achgs cs l, ?_, i1.rel, .stop (hok.imp id (.imp p1 id)) hf, p1⟩
          simp only [loop, hv, h.rel.live, hf, e1, bind, Except.bind, pure, Except.pure]
      rcases h.full i k v0 hgo with ⟨hg, v, hv, hc⟩ | ⟨hg, -, hv | ⟨hs, v, hv⟩⟩
      · exact call v hv (.inl ⟨hg, aget_of h.rel hc⟩)
      · obtain ⟨s', a', t, e, l', h1, h2, h3, h4⟩ := loop_walk grow f is s a l g hb' h
        exact ⟨s', a', t, e, l', by simp only [loop, hv]; exact h1, h2, .skip hg h3, h4⟩
      · exact call v hv (.inr ⟨hs, hg⟩)

theorem keysAt_range (init : List (Option (K × V))) : keysAt init (List.range init.length) = (live init).map (·.1) := by
  induction init with
  | nil => rfl
  | cons o init ih =>
    rw [List.length_cons, List.range_succ_eq_map]
    have : keysAt (o :: init) ((List.range init.length).map Nat.succ) = keysAt init (List.range init.length) := by
      simp [keysAt, List.filterMap_map, Function.comp_def]
    cases o with
    | none =>
      have h2 : keysAt (none :: init) (0 :: (List.range init.length).map Nat.succ) = keysAt (none :: init) ((List.range init.length).map Nat.succ) := by simp [keysAt]
      rw [h2, this, ih]; simp [live]
    | some kv =>
      have h2 : keysAt (some kv :: init) (0 :: (List.range init.length).map Nat.succ) = kv.1 :: keysAt (some kv :: init) ((List.range init.length).map Nat.succ) := by simp [keysAt]
      rw [h2, this, ih]; simp [live]

/-- C154: whatever the callback does to the map, `Range` does not panic, visits entries there at the beginning only, in their order and each at most once, visits each one that has not been deleted with the value it
has at that time, and leaves the map that the changes make of it. What is missing: if the map was given a larger array, it may also visit deleted entries. -/
theorem C154_walk_partial (grow : Nat → Nat) (f : Callback σ E K V) {m : OrderedMap K V} {l : List (K × V)} (r : Rel m l) (cap : Nat) (a : σ) :
    ∃ s' a' t e l', range grow f m cap a = .ok (s', a', t, e) ∧ Rel s'.m l' ∧ Walk f (s'.same = false) (l.map (·.1)) (fun _ => False) l a t l' a' e := by
  have hinv : Inv m.list (⟨m, cap, m.list, true⟩ : St K V) l (fun _ => False) := by
    refine ⟨r, rfl, Nat.le_refl _, fun j hj => ⟨hj, hj⟩, fun j k v hj => .inl ⟨id, v, hj, hj⟩, ?_⟩
    intro i j k v w hi hj
    have h1 := (r.idx k i).2 ⟨v, hi⟩
    have h2 := (r.idx k j).2 ⟨w, hj⟩
    rw [h1] at h2; exact Option.some.inj h2
  obtain ⟨s', a', t, e, l', h1, h2, h3, -⟩ := loop_walk grow f (List.range m.list.length) _ a l _ (by simp) hinv
  rw [keysAt_range, r.live] at h3
  exact ⟨s', a', t, e, l', h1, h2, h3⟩

/-- C154: the pairs visited have different keys, which were all in the map at the beginning, in the order of that time. -/
theorem C154_order {f : Callback σ E K V} {p : Prop} {ks : List K} {g : K → Prop} {l : List (K × V)} {a : σ} {t l' : List (K × V)} {a' : σ} {e : Option E}
    (h : Walk f p ks g l a t l' a' e) : (t.map (·.1)).Sublist ks := by
  induction h with
  | done => exact .slnil
  | skip _ _ ih => exact ih.cons _
  | stop _ _ => simp
  | visit _ _ _ ih => simpa using ih

/-- The specification as a function: what a loop visits that skips what was deleted. -/
def spec (f : Callback σ E K V) : List K → List K → List (K × V) → σ → List (K × V) × List (K × V) × σ × Option E
  | [], _, l, a => ([], l, a, none)
  | k :: ks, del, l, a =>
    if k ∈ del then spec f ks del l a else
    match aget l k with
    | none => spec f ks del l a
    | some v =>
      match f a k v l with
      | (a', cs, some e) => ([(k, v)], achgs cs l, a', some e)
      | (a', cs, none) =>
        let r := spec f ks (del ++ cs.filterMap fun | .del x => some x | _ => none) (achgs cs l) a'
        ((k, v) :: r.1, r.2)

theorem Walk.exact {f : Callback σ E K V} {ks : List K} {g : K → Prop} {l : List (K × V)} {a : σ} {t l' : List (K × V)} {a' : σ} {e : Option E}
    (h : Walk f False ks g l a t l' a' e) : ∀ del : List K, (∀ x, g x ↔ x ∈ del) → spec f ks del l a = (t, l', a', e) := by
  induction h with
  | done => intro _ _; rfl
  | skip hg _ ih => intro d hd; simp only [spec]; rw [if_pos ((hd _).1 hg)]; exact ih d hd
  | stop hv hf =>
    intro d hd
    obtain ⟨h1, h2⟩ : _ ∧ _ := hv.resolve_right (fun h => h.1)
    simp only [spec]; rw [if_neg (fun h => h1 ((hd _).2 h)), h2]; simp only [hf]
  | @visit k ks g l a v a1 cs t l' a' e hv hf _ ih =>
    intro d hd
    obtain ⟨h1, h2⟩ : _ ∧ _ := hv.resolve_right (fun h => h.1)
    simp only [spec]; rw [if_neg (fun h => h1 ((hd _).2 h)), h2]; simp only [hf]
    rw [ih (d ++ cs.filterMap fun | .del x => some x | _ => none)]
    intro x
    rw [List.mem_append, ← hd x, List.mem_filterMap]
    refine or_congr Iff.rfl ⟨fun h => ⟨_, h, rfl⟩, ?_⟩
    rintro ⟨c, hc, hx⟩
    cases c with
    | put k v => cases hx
    | del y => cases hx; exact hc

/-- C154: if the map keeps its array, `Range` visits exactly the entries that are not deleted before their turn. -/
theorem C154_exact (grow : Nat → Nat) (f : Callback σ E K V) {m : OrderedMap K V} {l : List (K × V)} (r : Rel m l) (cap : Nat) (a : σ) :
    ∃ s' a' t e l', range grow f m cap a = .ok (s', a', t, e) ∧ Rel s'.m l' ∧ (s'.same = true → (t, l', a', e) = spec f (l.map (·.1)) [] l a) := by
  obtain ⟨s', a', t, e, l', h1, h2, h3⟩ := C154_walk_partial grow f r cap a
  refine ⟨s', a', t, e, l', h1, h2, fun hs => ?_⟩
  have : Walk f False (l.map (·.1)) (fun _ => False) l a t l' a' e := h3.mono (by rw [hs]; simp)
  exact (this.exact [] (by simp)).symm

/-! ### what does not hold, and examples -/

/-- Entries put into a new map. -/
def filled (l : List (K × V)) : OrderedMap K V := ⟨l.map some, fun k => l.findIdx? fun p => p.1 = k⟩

/-- The map of the theorems below is that after two calls of `Put`; the capacity of its array is then 2. -/
example : ((OrderedMap.new : OrderedMap Nat Nat).put 1 10 >>= fun r => r.1.put 2 20 >>= fun r => pure r.1.list) = .ok (filled [(1, 10), (2, 20)]).list := rfl

/-- At the first entry it puts a new one and deletes the second. -/
def addDel : Callback Unit Empty Nat Nat := fun _ k _ _ => ((), if k = 1 then [.put 9 90, .del 2] else [], none)

/-- At the first entry it puts a new one, deletes the second and puts it again. -/
def addDelPut : Callback Unit Empty Nat Nat := fun _ k _ _ => ((), if k = 1 then [.put 9 90, .del 2, .put 2 99] else [], none)

/-- What a call of `Range` leaves to see: the pairs visited and what the map has for the second key. -/
def look (r : Go (St Nat Nat × Unit × List (Nat × Nat) × Option Empty)) : Go (List (Nat × Nat) × Option Nat) := do
  let (s, _, t, _) ← r
  let v ← s.m.get 2
  pure (t, v)

/-- C154 is violated: the callback deletes the second entry before its turn, but it is visited if the entry put before needed a larger array; if there was room it is not. -/
theorem C154_deleted_violated (grow : Nat → Nat) : look (range grow addDel (filled [(1, 10), (2, 20)]) 2 ()) = .ok ([(1, 10), (2, 20)], none) ∧
    look (range grow addDel (filled [(1, 10), (2, 20)]) 3 ()) = .ok ([(1, 10)], none) := ⟨rfl, rfl⟩

/-- C154 is violated: an entry deleted and put again is visited with its old value, or not at all. -/
theorem C154_stale_violated (grow : Nat → Nat) : look (range grow addDelPut (filled [(1, 10), (2, 20)]) 2 ()) = .ok ([(1, 10), (2, 20)], some 99) ∧
    look (range grow addDelPut (filled [(1, 10), (2, 20)]) 4 ()) = .ok ([(1, 10)], some 99) := ⟨rfl, rfl⟩

/-- A key put and deleted `n` times. -/
def churn (k : K) (v : V) : Nat → OrderedMap K V → Go (OrderedMap K V)
  | 0, m => .ok m
  | n + 1, m => do
    let (m, _) ← m.put k v
    let (m, _) ← m.delete k
    churn k v n m

/-- C154 is violated: slots of deleted entries are never used again: a map in which one key is put and deleted `n` times is empty and has `n` slots, all of which `Len` and `Range` pass. -/
theorem C154_slots_violated (k : K) (v : V) (n : Nat) : ∃ m, churn k v n OrderedMap.new = .ok m ∧ Rel m [] ∧ m.list.length = n := by
  have step : ∀ n (m : OrderedMap K V), Rel m [] → ∃ m', churn k v n m = .ok m' ∧ Rel m' [] ∧ m'.list.length = m.list.length + n := by
    intro n
    induction n with
    | zero => intro m h; exact ⟨m, rfl, h, rfl⟩
    | succ n ih =>
      intro m h
      obtain ⟨m1, e1, r1⟩ := put_spec h k v
      obtain ⟨m2, e2, r2⟩ := delete_spec r1 k
      have hk : m.byKey k = none := by
        cases hb : m.byKey k with
        | none => rfl
        | some i =>
          obtain ⟨w, hw⟩ := (h.idx k i).1 hb
          have := mem_live.2 ⟨i, hw⟩
          rw [h.live] at this; cases this
      have l1 : m1.list.length = m.list.length + 1 := by
        unfold OrderedMap.put at e1
        simp only [hk, Except.ok.injEq, Prod.mk.injEq] at e1
        rw [← e1.1]; simp
      have hk1 : ∃ i, m1.byKey k = some i := by
        have : (k, v) ∈ live m1.list := by rw [r1.live]; simp [aput]
        obtain ⟨i, hi⟩ := mem_live.1 this
        exact ⟨i, (r1.idx k i).2 ⟨v, hi⟩⟩
      obtain ⟨i, hi⟩ := hk1
      have l2 : m2.list.length = m1.list.length := by
        rw [(list_set r1 hi v).2] at e2
        simp only [Except.ok.injEq, Prod.mk.injEq] at e2
        rw [← e2.1]; simp
      have r2' : Rel m2 [] := by simpa [aput, adel] using r2
      obtain ⟨m', e, r, hl⟩ := ih m2 r2'
      exact ⟨m', by simp only [churn, e1, e2, bind, Except.bind, e], r, by omega⟩
  obtain ⟨m, e, r, h⟩ := step n OrderedMap.new rel_new
  exact ⟨m, e, r, by simpa [OrderedMap.new] using h⟩

/-- A callback that doubles every value, deletes the third entry at the second and stops at 5. -/
def busy : Callback Nat Nat Nat Nat := fun a k v l => (a + v + l.length, .put k (2 * v) :: (if k = 2 then [.del 3, .put 4 7] else []), if k = 5 then some 1 else none)

/-- The value of the fourth entry that the callback sees is the one it has put before; the third is skipped; the last is not reached. -/
example : (do let (s, a, t, e) ← range id busy (filled [(1, 1), (2, 2), (3, 3), (4, 4), (5, 5), (6, 6)]) 8 0; pure (live s.m.list, a, t, e)) =
    .ok ([(1, 2), (2, 4), (4, 14), (5, 10), (6, 6)], 37, [(1, 1), (2, 2), (4, 7), (5, 5)], some 1) := rfl

/-- That is what the specification says. -/
example : spec busy [1, 2, 3, 4, 5, 6] [] [(1, 1), (2, 2), (3, 3), (4, 4), (5, 5), (6, 6)] 0 =
    ([(1, 1), (2, 2), (4, 7), (5, 5)], [(1, 2), (2, 4), (4, 14), (5, 10), (6, 6)], 37, some 1) := rfl

/-- A callback that puts a new entry at each visit ends: new entries are not visited. -/
example : (do let (s, _, t, _) ← range (2 * ·) (fun (_ : Unit) k _ _ => ((), [.put (k + 10) 0], (none : Option Unit))) (filled [(1, 1), (2, 2)]) 2 (); pure (live s.m.list, t)) =
    .ok ([(1, 1), (2, 2), (11, 0), (12, 0)], [(1, 1), (2, 2)]) := rfl

example : (churn 5 () 3 OrderedMap.new >>= fun m => pure (m.list, m.len)) = .ok ([none, none, none], 0) := rfl

end Verif.OMap.Reenter

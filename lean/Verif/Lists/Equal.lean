import Verif.Base
/-!
# `Contains`, `AddUnique` and `Set` over Go's equality (/repo/utils/lists/lists.go, set.go)

The constraint `comparable` of this package is `int | float64 | string` (sort.go L13-15), so elements may be floats: `==` is not reflexive on NaN, and +0 == -0. The models of C12 are about
types whose `==` is identity; these have `==` as a parameter. `sync.Map` compares keys with `==`.
-/
set_option autoImplicit false
namespace Verif.Lists.Equal

variable {α : Type}

/-- What Go's `==` is: symmetric and transitive. -/
structure GoEq (eq : α → α → Bool) : Prop where
  symm : ∀ a b, eq a b = true → eq b a = true
  trans : ∀ a b c, eq a b = true → eq b c = true → eq a c = true

/-- utils/lists/lists.go L3-10 `Contains`. -/
def contains (eq : α → α → Bool) : List α → α → Bool
  | [], _ => false
  | e :: a, i => if eq e i then true else contains eq a i

/-- utils/lists/lists.go L12-17 `AddUnique`. -/
def addUnique (eq : α → α → Bool) (a : List α) (i : α) : List α := if contains eq a i then a else a ++ [i]

/-- utils/lists/set.go L9-12 `Add`. -/
def add (eq : α → α → Bool) (keys : List α) (t : α) : List α × Bool := if keys.any (eq t) then (keys, false) else (t :: keys, true)

/-- utils/lists/set.go L14-17 `Has`. -/
def has (eq : α → α → Bool) (keys : List α) (t : α) : Bool := keys.any (eq t)

/-- utils/lists/set.go L19-21 `Remove`. -/
def remove (eq : α → α → Bool) (keys : List α) (t : α) : List α × Bool := if keys.any (eq t) then (keys.eraseP (eq t), true) else (keys, false)

/-- A call. utils/lists/set.go L9-21. -/
inductive Op (α : Type) where
  | add (t : α)
  | remove (t : α)
  | has (t : α)

/-- The element of a call. -/
def Op.elem : Op α → α
  | .add t => t
  | .remove t => t
  | .has t => t

/-- A call on the keys: the keys after it and its result. utils/lists/set.go L9-21. -/
def step (eq : α → α → Bool) (keys : List α) : Op α → List α × Bool
  | .add t => add eq keys t
  | .remove t => remove eq keys t
  | .has t => (keys, has eq keys t)

/-- The keys after calls on a new set. utils/lists/set.go L9-21; `All` (L23-29) lists them in some order. -/
def keysAfter (eq : α → α → Bool) (ops : List (Op α)) : List α := ops.foldl (fun k o => (step eq k o).1) []

/-! ### specification -/

/-- Is an element equal to `x` in the set after these calls: the last `Add` or `Remove` of such an element decides. -/
def present (eq : α → α → Bool) (x : α) : List (Op α) → Bool
  | [] => false
  | .add t :: l => present eq x l || (eq x t && !(l.any fun | .remove u => eq x u | _ => false))
  | _ :: l => present eq x l

/-! ### lemmas -/

section
variable {eq : α → α → Bool} (E : GoEq eq)
include E

theorem any_congr {x t : α} (h : eq x t = true) (keys : List α) : keys.any (eq x) = keys.any (eq t) := by
  apply Bool.eq_iff_iff.2
  simp only [List.any_eq_true]
  exact ⟨fun ⟨y, hy, h1⟩ => ⟨y, hy, E.trans _ _ _ (E.symm _ _ h) h1⟩, fun ⟨y, hy, h1⟩ => ⟨y, hy, E.trans _ _ _ h h1⟩⟩

/-- No two keys are equal. -/
def Distinct (eq : α → α → Bool) (keys : List α) : Prop := keys.Pairwise fun a b => eq a b = false

theorem distinct_add (keys : List α) (t : α) (h : Distinct eq keys) : Distinct eq (add eq keys t).1 := by
  unfold add
  split
  · exact h
  · rename_i hn
    refine List.pairwise_cons.2 ⟨fun b hb => ?_, h⟩
    cases hx : eq t b with
    | false => rfl
    | true => exact absurd (List.any_eq_true.2 ⟨b, hb, hx⟩) hn

theorem distinct_step (keys : List α) (o : Op α) (h : Distinct eq keys) : Distinct eq (step eq keys o).1 := by
  cases o with
  | add t => exact distinct_add E keys t h
  | has t => exact h
  | remove t =>
    simp only [step, remove]
    split
    · exact List.Pairwise.sublist List.eraseP_sublist h
    · exact h

/-- Removing an element from distinct keys leaves those not equal to it. -/
theorem erase_any (keys : List α) (t x : α) (h : Distinct eq keys) : (keys.eraseP (eq t)).any (eq x) = (keys.any (eq x) && !(eq x t && keys.any (eq t))) := by
  induction keys with
  | nil => simp
  | cons k keys ih =>
    obtain ⟨h1, h2⟩ := List.pairwise_cons.1 h
    have ih := ih h2
    rw [List.eraseP_cons]
    cases hk : eq t k with
    | true =>
      simp only [hk, cond_true, List.any_cons, Bool.true_or, Bool.and_true]
      cases hx : eq x t with
      | false =>
        have : eq x k = false := by
          cases hxk : eq x k with
          | false => rfl
          | true => rw [E.trans _ _ _ hxk (E.symm _ _ hk)] at hx; cases hx
        simp [this]
      | true =>
        simp only [Bool.not_true, Bool.and_false]
        apply Bool.eq_false_iff.2
        intro ha
        obtain ⟨y, hy, hxy⟩ := List.any_eq_true.1 ha
        have := h1 y hy
        rw [E.trans k x y (E.symm _ _ (E.trans _ _ _ hx hk)) hxy] at this
        cases this
    | false =>
      simp only [hk, cond_false, List.any_cons, Bool.false_or, ih]
      cases hxk : eq x k with
      | false => simp
      | true =>
        have : eq x t = false := by
          cases hxt : eq x t with
          | false => rfl
          | true => rw [E.trans t x k (E.symm _ _ hxt) hxk] at hk; cases hk
        simp [this]

theorem any_step (keys : List α) (o : Op α) (h : Distinct eq keys) (x : α) :
    (step eq keys o).1.any (eq x) = match o with | .add t => keys.any (eq x) || eq x t | .remove t => keys.any (eq x) && !eq x t | .has _ => keys.any (eq x) := by
  cases o with
  | has t => rfl
  | add t =>
    simp only [step, add]
    split
    · rename_i ha
      cases hx : eq x t with
      | false => simp
      | true => rw [any_congr E hx, ha]; rfl
    · simp [Bool.or_comm]
  | remove t =>
    simp only [step, remove]
    split
    · rename_i ha
      rw [erase_any E keys t x h, ha, Bool.and_true]
    · rename_i ha
      cases hx : eq x t with
      | false => simp
      | true =>
        have ha : keys.any (eq t) = false := by simpa using ha
        rw [any_congr E hx, ha]; rfl

theorem present_snoc (x : α) (ops : List (Op α)) (o : Op α) :
    present eq x (ops ++ [o]) = match o with | .add t => present eq x ops || eq x t | .remove t => present eq x ops && !eq x t | .has _ => present eq x ops := by
  induction ops with
  | nil => cases o <;> simp [present]
  | cons p ops ih =>
    have ih2 : ∀ b, (present eq x ops || b) = (b || present eq x ops) := fun b => Bool.or_comm _ _
    cases p <;> cases o <;> simp only [List.cons_append, present, ih, List.any_append, List.any_cons, List.any_nil, Bool.or_false] <;>
      first | rfl | skip
    all_goals
      rename_i t u
      cases present eq x ops <;> cases eq x t <;> cases eq x u <;> simp

theorem keys_spec (ops : List (Op α)) : Distinct eq (keysAfter eq ops) ∧ ∀ x, (keysAfter eq ops).any (eq x) = present eq x ops := by
  have key : ∀ l : List (Op α), Distinct eq (keysAfter eq l.reverse) ∧ ∀ x, (keysAfter eq l.reverse).any (eq x) = present eq x l.reverse := by
    intro l
    induction l with
    | nil => exact ⟨List.Pairwise.nil, fun x => rfl⟩
    | cons o l ih =>
      obtain ⟨h1, h2⟩ := ih
      have hs : keysAfter eq (l.reverse ++ [o]) = (step eq (keysAfter eq l.reverse) o).1 := by simp [keysAfter]
      rw [List.reverse_cons, hs]
      refine ⟨distinct_step E _ o h1, fun x => ?_⟩
      rw [any_step E _ o h1 x, present_snoc E, h2 x]
  have := key ops.reverse
  rwa [List.reverse_reverse] at this

end

/-! ### C12 -/

/-- C12, for elements equal to themselves: after any calls `Add` returns whether no element equal to it was in the set, `Has` and `Remove` whether one was; `All` lists no two equal elements, and
one equal to each element in the set. -/
theorem C12_set_partial {eq : α → α → Bool} (E : GoEq eq) (ops : List (Op α)) (x : α) (hx : eq x x = true) :
    (step eq (keysAfter eq ops) (.add x)).2 = !present eq x ops ∧ (step eq (keysAfter eq ops) (.has x)).2 = present eq x ops ∧
    (step eq (keysAfter eq ops) (.remove x)).2 = present eq x ops ∧
    (keysAfter eq ops).Pairwise (fun a b => eq a b = false) ∧ (present eq x ops = true ↔ ∃ y ∈ keysAfter eq ops, eq x y = true) ∧
    present eq x (ops ++ [.add x]) = true := by
  obtain ⟨h1, h2⟩ := keys_spec E ops
  refine ⟨?_, h2 x, ?_, h1, ?_, ?_⟩
  · simp only [step, add]
    rw [← h2 x]
    split <;> simp_all
  · simp only [step, remove]
    rw [← h2 x]
    split <;> simp_all
  · rw [← h2 x, List.any_eq_true]
  · rw [present_snoc E]; simp [hx]

/-- C12, for elements equal to themselves: `Contains` finds an equal element, and after `AddUnique` there is one; it adds nothing if there was one. -/
theorem C12_addUnique_partial {eq : α → α → Bool} (a : List α) (i : α) (hi : eq i i = true) :
    (contains eq a i = true ↔ ∃ e ∈ a, eq e i = true) ∧ contains eq (addUnique eq a i) i = true ∧
    (contains eq a i = true → addUnique eq a i = a) ∧ (contains eq a i = false → addUnique eq a i = a ++ [i]) := by
  have key : ∀ a : List α, contains eq a i = true ↔ ∃ e ∈ a, eq e i = true := by
    intro a
    induction a with
    | nil => simp [contains]
    | cons e a ih => simp only [contains]; split <;> simp_all
  refine ⟨key a, ?_, fun h => by simp [addUnique, h], fun h => by simp [addUnique, h]⟩
  rw [key]
  cases h : contains eq a i with
  | true =>
    obtain ⟨e, he, h2⟩ := (key a).1 h
    exact ⟨e, by simpa [addUnique, h] using he, h2⟩
  | false => exact ⟨i, by simp [addUnique, h], hi⟩

/-- C12 fails for an element that is not equal to itself (NaN): every `Add` adds it again, it is never found, and can not be removed. -/
theorem C12_nan_violated {eq : α → α → Bool} (E : GoEq eq) (x : α) (hx : eq x x = false) (n : Nat) :
    keysAfter eq (List.replicate n (.add x)) = List.replicate n x ∧ ∀ ops : List (Op α), (step eq (keysAfter eq ops) (.add x)).2 = true ∧
      (step eq (keysAfter eq ops) (.has x)).2 = false ∧ step eq (keysAfter eq ops) (.remove x) = (keysAfter eq ops, false) := by
  have hno : ∀ y, eq x y = false := fun y => by
    cases h : eq x y with
    | false => rfl
    | true => rw [E.trans _ _ _ h (E.symm _ _ h)] at hx; cases hx
  have hany : ∀ l : List α, l.any (eq x) = false := by intro l; simp [hno]
  refine ⟨?_, fun ops => ?_⟩
  · have : ∀ (m : Nat) (k : List α), (List.replicate m (Op.add x)).foldl (fun k o => (step eq k o).1) k = List.replicate m x ++ k := by
      intro m
      induction m with
      | zero => intro k; rfl
      | succ m ih =>
        intro k
        rw [List.replicate_succ, List.foldl_cons, ih]
        simp only [step, add, hany]
        rw [List.replicate_succ', List.append_assoc]
        rfl
    have := this n []
    rw [List.append_nil] at this
    exact this
  · simp [step, add, has, remove, hany]

/-- C12 fails: `AddUnique` of NaN adds it every time. -/
theorem C12_addUnique_nan_violated {eq : α → α → Bool} (E : GoEq eq) (x : α) (hx : eq x x = false) (a : List α) :
    contains eq (addUnique eq a x) x = false ∧ addUnique eq a x = a ++ [x] := by
  have hno : ∀ y, eq y x = false := fun y => by
    cases h : eq y x with
    | false => rfl
    | true => rw [E.trans _ _ _ (E.symm _ _ h) h] at hx; cases hx
  have key : ∀ a : List α, contains eq a x = false := by
    intro a
    induction a with
    | nil => rfl
    | cons e a ih => simp [contains, hno, ih]
  exact ⟨key _, by simp [addUnique, key]⟩

/-- Floats as far as `==` is concerned: NaN, and two zeros that are equal. -/
inductive F where
  | nan | zero | negZero | num (n : Nat)
deriving DecidableEq

/-- Their `==`. -/
def F.eq : F → F → Bool
  | .nan, _ => false
  | _, .nan => false
  | .num a, .num b => a == b
  | .num _, _ => false
  | _, .num _ => false
  | _, _ => true

example : GoEq F.eq := by
  constructor
  · intro a b; cases a <;> cases b <;> simp [F.eq]; exact fun h => h.symm
  · intro a b c; cases a <;> cases b <;> cases c <;> simp [F.eq]; exact fun h k => h.trans k

example : keysAfter F.eq [.add (.num 3), .add .negZero, .add .zero, .add .nan, .add .nan, .remove (.num 3), .remove .nan] = [.nan, .nan, .negZero] := by decide

end Verif.Lists.Equal

import Verif.Base
/-!
# `Sort` and `SortFunc` (/repo/utils/lists/sort.go), `Pairs`, `Keys` and `Values` (/repo/utils/maps/maps.go)

Both sort with `sort.Slice`, which is external: up to 12 elements it is an insertion sort (`insertionSort_func`), modelled; for more elements it is a parameter `big` that gives the same elements
in some order, and in ascending order if `less` is a strict weak order. It is not said to be stable. That elements are swapped in place is not modelled: the results are what the slice holds.
-/
set_option autoImplicit false
namespace Verif.Lists.Sort

section
variable {α S : Type}

/-- A comparison `sort.Slice` can sort with, as its documentation asks for. -/
structure StrictWeak (less : α → α → Bool) : Prop where
  irrefl : ∀ a, less a a = false
  trans : ∀ a b c, less a b = true → less b c = true → less a c = true
  incomp : ∀ a b c, less a b = false → less b a = false → less b c = false → less c b = false → less a c = false ∧ less c a = false

/-- Ascending: nothing is less than something before it. -/
def Sorted (less : α → α → Bool) (l : List α) : Prop := l.Pairwise fun a b => less b a = false

/-- The inner loop of an insertion sort: `x` moves down past elements it is less than; the list is what is before it, the nearest first. For utils/lists/sort.go L8, L18. -/
def sink (less : α → α → Bool) (x : α) : List α → List α
  | [] => [x]
  | p :: l => if less x p then p :: sink less x l else x :: p :: l

/-- `insertionSort_func`. For utils/lists/sort.go L8, L18. -/
def insertion (less : α → α → Bool) (l : List α) : List α := (l.foldl (fun pre x => sink less x pre) []).reverse

/-- What is known of `sort.Slice` for more elements. -/
structure Big (big : (α → α → Bool) → List α → List α) : Prop where
  perm : ∀ less l, (big less l).Perm l
  sorted : ∀ less l, StrictWeak less → Sorted less (big less l)

/-- `sort.Slice`. For utils/lists/sort.go L8, L18. -/
def sortSlice (big : (α → α → Bool) → List α → List α) (less : α → α → Bool) (l : List α) : List α := if l.length ≤ 12 then insertion less l else big less l

/-- utils/lists/sort.go L7-11 `Sort`: the slice afterwards. -/
def sort (big : (α → α → Bool) → List α → List α) (l : List α) (less : α → α → Bool) : List α := sortSlice big (fun a b => less a b) l

/-- utils/lists/sort.go L17-23 `SortFunc`; `lt` is `<` of the scores. -/
def sortFunc (big : (α → α → Bool) → List α → List α) (lt : S → S → Bool) (l : List α) (score : α → S) : List α :=
  sortSlice big (fun a b => lt (score a) (score b)) l

/-! ### lemmas -/

theorem sink_perm (less : α → α → Bool) (x : α) : ∀ l, (sink less x l).Perm (x :: l)
  | [] => List.Perm.refl _
  | p :: l => by
    simp only [sink]
    split
    · exact ((sink_perm less x l).cons p).trans (List.Perm.swap ..)
    · exact List.Perm.refl _

theorem fold_perm (less : α → α → Bool) : ∀ (l pre : List α), (l.foldl (fun pre x => sink less x pre) pre).Perm (l ++ pre)
  | [], pre => List.Perm.refl _
  | x :: l, pre => by
    rw [List.foldl_cons]
    refine (fold_perm less l _).trans ?_
    refine ((sink_perm less x pre).append_left l).trans ?_
    exact List.perm_middle

theorem insertion_perm (less : α → α → Bool) (l : List α) : (insertion less l).Perm l := by
  have := fold_perm less l []
  rw [List.append_nil] at this
  exact (List.reverse_perm _).trans this

/-- Descending. -/
def Desc (less : α → α → Bool) (l : List α) : Prop := l.Pairwise fun a b => less a b = false

/-- In a strict weak order `¬ less` is transitive. -/
theorem not_less_trans {less : α → α → Bool} (h : StrictWeak less) (a b c : α) (h1 : less a b = false) (h2 : less b c = false) : less a c = false := by
  cases hac : less a c with
  | false => rfl
  | true =>
    exfalso
    cases hba : less b a with
    | true => rw [h.trans b a c hba hac] at h2; cases h2
    | false =>
      cases hcb : less c b with
      | true => rw [h.trans a c b hac hcb] at h1; cases h1
      | false => rw [(h.incomp a b c h1 hba h2 hcb).1] at hac; cases hac

theorem sink_desc {less : α → α → Bool} (h : StrictWeak less) (x : α) : ∀ l, Desc less l → Desc less (sink less x l)
  | [], _ => by simp [sink, Desc]
  | p :: l, hd => by
    obtain ⟨h1, h2⟩ := List.pairwise_cons.1 hd
    simp only [sink]
    split
    · rename_i hlt
      refine List.pairwise_cons.2 ⟨fun y hy => ?_, sink_desc h x l h2⟩
      rcases List.mem_cons.1 ((sink_perm less x l).mem_iff.1 hy) with rfl | hy
      · cases hp : less p y with
        | false => rfl
        | true => have := h.trans _ _ _ hp hlt; rw [h.irrefl] at this; cases this
      · exact h1 y hy
    · rename_i hlt
      have hlt : less x p = false := by simpa using hlt
      refine List.pairwise_cons.2 ⟨fun y hy => ?_, hd⟩
      rcases List.mem_cons.1 hy with rfl | hy
      · exact hlt
      · exact not_less_trans h x p y hlt (h1 y hy)

theorem fold_desc {less : α → α → Bool} (h : StrictWeak less) : ∀ (l pre : List α), Desc less pre → Desc less (l.foldl (fun pre x => sink less x pre) pre)
  | [], _, hd => hd
  | x :: l, pre, hd => fold_desc h l _ (sink_desc h x pre hd)

theorem insertion_sorted {less : α → α → Bool} (h : StrictWeak less) (l : List α) : Sorted less (insertion less l) := by
  unfold Sorted insertion
  rw [List.pairwise_reverse]
  exact fold_desc h l [] List.Pairwise.nil

/-- Elements alike keep their order. -/
theorem sink_filter {less : α → α → Bool} (h : StrictWeak less) (c x : α) : ∀ l,
    (sink less x l).filter (fun y => !less y c && !less c y) = (x :: l).filter (fun y => !less y c && !less c y)
  | [] => rfl
  | p :: l => by
    simp only [sink]
    split
    · rename_i hlt
      rw [List.filter_cons, sink_filter h c x l]
      by_cases hp : less p c = false ∧ less c p = false
      · have hx : (!less x c && !less c x) = false := by
          cases h1 : less x c with
          | true => simp
          | false =>
            cases h2 : less c x with
            | true => simp
            | false => have := (h.incomp x c p h1 h2 hp.2 hp.1).1; rw [hlt] at this; cases this
        simp [List.filter_cons, hx]
      · have hp : (!less p c && !less c p) = false := by
          cases h1 : less p c <;> cases h2 : less c p <;> simp_all
        simp [List.filter_cons, hp]
    · rfl

theorem fold_filter {less : α → α → Bool} (h : StrictWeak less) (c : α) : ∀ (l pre : List α),
    (l.foldl (fun pre x => sink less x pre) pre).filter (fun y => !less y c && !less c y) = (l.reverse ++ pre).filter (fun y => !less y c && !less c y)
  | [], _ => rfl
  | x :: l, pre => by
    rw [List.foldl_cons, fold_filter h c l, List.filter_append, sink_filter h c x pre, ← List.filter_append]
    simp

/-! ### C136 -/

/-- C136: whatever the comparison, `Sort` loses and invents nothing. -/
theorem C136_perm {big : (α → α → Bool) → List α → List α} (B : Big big) (l : List α) (less : α → α → Bool) : (sort big l less).Perm l := by
  simp only [sort, sortSlice]
  split
  · exact insertion_perm _ l
  · exact B.perm _ l

example : sort (fun _ l => l) [2, 1, 2, 0] (fun a b => decide (a < b)) = [0, 1, 2, 2] := by decide

/-- Also if the order is no order. -/
example : sort (fun _ l => l) [2, 1, 2, 0] (fun _ _ => true) = [0, 2, 1, 2] := by decide

/-- C136: with a strict weak order the result ascends. -/
theorem C136_sort {big : (α → α → Bool) → List α → List α} (B : Big big) (l : List α) (less : α → α → Bool) (h : StrictWeak less) :
    (sort big l less).Pairwise fun a b => less b a = false := by
  simp only [sort, sortSlice]
  split
  · exact insertion_sorted h l
  · exact B.sorted _ l h

/-- C136: up to twelve elements, those that are alike keep their order. -/
theorem C136_stable_partial (big : (α → α → Bool) → List α → List α) (l : List α) (hl : l.length ≤ 12) (less : α → α → Bool) (h : StrictWeak less) (c : α) :
    (sort big l less).filter (fun y => !less y c && !less c y) = l.filter (fun y => !less y c && !less c y) := by
  simp only [sort, sortSlice, if_pos hl, insertion]
  rw [List.filter_reverse, fold_filter h c l [], List.append_nil, List.filter_reverse, List.reverse_reverse]

example : (sort (fun _ l => l) [(3, 'a'), (1, 'b'), (3, 'c')] (fun a b => decide (a.1 < b.1))).filter (fun y => y.1 == 3) = [(3, 'a'), (3, 'c')] := by decide

/-- C136: `SortFunc` gives the same elements in the order of their scores, if the scores in use are ordered (whole numbers, texts, floats other than NaN). -/
theorem C136_sortFunc_partial {big : (α → α → Bool) → List α → List α} (B : Big big) (lt : S → S → Bool) (l : List α) (score : α → S)
    (h : StrictWeak fun a b => lt (score a) (score b)) :
    (sortFunc big lt l score).Perm l ∧ ((sortFunc big lt l score).map score).Pairwise fun a b => lt b a = false := by
  simp only [sortFunc, sortSlice]
  split
  · exact ⟨insertion_perm _ l, List.pairwise_map.2 (insertion_sorted h l)⟩
  · exact ⟨B.perm _ l, List.pairwise_map.2 (B.sorted _ l h)⟩

example : sortFunc (fun _ l => l) (fun a b : Int => decide (a < b)) ["ccc", "a", "bb"] (fun s => (s.length : Int)) = ["a", "bb", "ccc"] := by decide

/-- C136: scores that are whole numbers are. -/
theorem C136_ints (score : α → Int) : StrictWeak fun a b => decide (score a < score b) := by
  constructor
  · intro a; simp
  · intro a b c; simp only [decide_eq_true_eq]; omega
  · intro a b c; simp only [decide_eq_false_iff_not]; omega

end

/-- Scores that are floats: NaN, or a number. For utils/lists/sort.go L13-15. -/
def ltF : Option Int → Option Int → Bool
  | some a, some b => decide (a < b)
  | _, _ => false

/-- C136 fails: one NaN among the scores leaves the others out of order. -/
theorem C136_nan_violated (big : (Option Int → Option Int → Bool) → List (Option Int) → List (Option Int)) :
    sortFunc big ltF [some 2, none, some 1] id = [some 2, none, some 1] ∧ ltF (some 1) (some 2) = true := ⟨rfl, by decide⟩

section
variable {K V : Type}

/-- utils/maps/maps.go L28-36 `Pairs`: `range` visits the entries of a map in some order. -/
def pairs (visited : List (K × V)) : List (K × V) := visited.foldl (fun out p => out ++ [(p.1, p.2)]) []

/-- utils/maps/maps.go L5-11 `Keys`. -/
def keys (l : List (K × V)) : List K := l.map fun p => p.1

/-- utils/maps/maps.go L13-19 `Values`. -/
def values (l : List (K × V)) : List V := l.map fun p => p.2

/-- C136: `Pairs` lists every entry of a map once, in the order they are visited; `Keys` and `Values` belong together. -/
theorem C136_pairs (entries visited : List (K × V)) (h : visited.Perm entries) :
    (pairs visited).Perm entries ∧ (keys (pairs visited)).zip (values (pairs visited)) = pairs visited := by
  have key : ∀ (l out : List (K × V)), l.foldl (fun out p => out ++ [(p.1, p.2)]) out = out ++ l := by
    intro l
    induction l with
    | nil => simp
    | cons p l ih => intro out; rw [List.foldl_cons, ih]; simp
  have hp : pairs visited = visited := by simp [pairs, key]
  rw [hp]
  refine ⟨h, ?_⟩
  rw [keys, values, List.zip_map']
  simp

end

example : sort (fun _ l => l) [(3, 'a'), (1, 'b'), (3, 'c'), (2, 'd')] (fun a b => decide (a.1 < b.1)) = [(1, 'b'), (2, 'd'), (3, 'a'), (3, 'c')] := by decide

end Verif.Lists.Sort

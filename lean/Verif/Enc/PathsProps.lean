import Verif.Enc.Paths
/-!
# Paths: what they are during a call, and afterwards; their texts; their parents (C120, C121)
-/
set_option autoImplicit false
namespace Verif.Enc.Paths
open Verif.Strconv Verif.Enc

/-! ### The specification -/

mutual
/-- The positions reported by a walk, as lists: no sharing. -/
def positions {α : Type} (p : List α) : Walk α → List (List α)
  | .mk parts reports => partPositions p parts ++ reports.map fun k => p ++ [k]
/-- Those of the parts. -/
def partPositions {α : Type} (p : List α) : List (α × Walk α) → List (List α)
  | [] => []
  | (x, w) :: l => positions (p ++ [x]) w ++ partPositions p l
end

/-! ### Lemmas -/

/-- The slice is within its array and holds `p`. -/
def Holds {α : Type} (h : Heap α) (s : Slice) (p : List α) : Prop :=
  s.len = p.length ∧ s.len ≤ capacity h s ∧ read h s = p.map some ∧ (∀ a, s.arr = some a → a < h.length)

/-- What happens from `h` to `h'` only writes behind the slice in its array, and into new arrays. -/
def Keeps {α : Type} (s : Slice) (h h' : Heap α) : Prop :=
  h.length ≤ h'.length ∧
  ∀ a, a < h.length → (h'.getD a []).length = (h.getD a []).length ∧ (if s.arr = some a then (h'.getD a []).take s.len = (h.getD a []).take s.len else h'.getD a [] = h.getD a [])

theorem keeps_refl {α : Type} (s : Slice) (h : Heap α) : Keeps s h h := ⟨Nat.le_refl _, fun _ _ => ⟨rfl, by split <;> rfl⟩⟩

theorem keeps_trans {α : Type} {s : Slice} {h h' h'' : Heap α} (a : Keeps s h h') (b : Keeps s h' h'') : Keeps s h h'' := by
  refine ⟨Nat.le_trans a.1 b.1, ?_⟩
  intro i hlt
  obtain ⟨x1, x2⟩ := a.2 i hlt
  obtain ⟨y1, y2⟩ := b.2 i (Nat.lt_of_lt_of_le hlt a.1)
  refine ⟨y1.trans x1, ?_⟩
  by_cases hs : s.arr = some i
  · simp only [hs, if_true] at x2 y2 ⊢; exact y2.trans x2
  · simp only [hs, if_false] at x2 y2 ⊢; exact y2.trans x2

theorem holds_keeps {α : Type} {s : Slice} {h h' : Heap α} {p : List α} (a : Holds h s p) (b : Keeps s h h') : Holds h' s p := by
  obtain ⟨a1, a2, a3, a4⟩ := a
  rcases s with ⟨_ | i, n⟩
  · exact ⟨a1, by simpa [capacity] using a2, by simpa [read] using a3, by simp⟩
  · obtain ⟨x1, x2⟩ := b.2 i (a4 i rfl)
    simp only [if_true] at x2
    refine ⟨a1, ?_, ?_, ?_⟩
    · simp only [capacity] at a2 ⊢; omega
    · simp only [read] at a3 ⊢; rw [x2]; exact a3
    · intro j hj; cases hj; exact Nat.lt_of_lt_of_le (a4 i rfl) b.1

/-- What `append` gives: the slice with one element more, in the same array or in a new one. -/
theorem append_spec {α : Type} (grow : Nat → Nat) {h : Heap α} {s : Slice} {p : List α} (x : α) (hs : Holds h s p) :
    Holds (append grow h s x).1 (append grow h s x).2 (p ++ [x]) ∧ Keeps s h (append grow h s x).1 ∧
    ((append grow h s x).2.len = s.len + 1) ∧ ((append grow h s x).2.arr = s.arr ∨ (append grow h s x).2.arr = some h.length) := by
  obtain ⟨a1, a2, a3, a4⟩ := hs
  unfold append
  by_cases hc : s.len < capacity h s
  · rw [if_pos hc]
    rcases s with ⟨_ | i, n⟩
    · simp [capacity] at hc
    · have hi := a4 i rfl
      simp only [capacity] at hc
      simp only [read] at a3
      have hg : h.getD i [] = h[i] := by simp [List.getD_eq_getElem?_getD, hi]
      rw [hg] at hc a3
      simp only [hg]
      have hm : min n (h[i]).length = n := by omega
      have hg2 : (h.set i (h[i].set n (some x))).getD i [] = h[i].set n (some x) := by simp [List.getD_eq_getElem?_getD, hi]
      refine ⟨⟨by simp; exact a1, ?_, ?_, ?_⟩, ⟨?_, ?_⟩, ?_, ?_⟩
      · simp only [capacity, hg2, List.length_set]; omega
      · simp only [read, hg2]
        rw [List.take_set, List.map_append, ← a3, List.take_add_one, List.getElem?_eq_getElem hc, List.set_append_right _ _ (by simp [hm])]
        simp [hm]
      · intro j hj; cases hj; simpa using hi
      · simp
      · intro j hlt
        by_cases hj : i = j
        · subst hj
          rw [hg2, hg]
          refine ⟨by simp, ?_⟩
          rw [if_pos rfl, List.take_set, List.set_eq_of_length_le]
          simp [hm]
        · simp [List.getD_eq_getElem?_getD, List.getElem?_set, hj]
      · trivial
      · exact Or.inl trivial
  · rw [if_neg hc]
    have hr : (read h s).length = s.len := by rw [a3, a1]; simp
    obtain ⟨arr, harr⟩ : ∃ arr, read h s ++ some x :: List.replicate (grow (capacity h s)) none = arr := ⟨_, rfl⟩
    rw [harr]
    have hg2 : (h ++ [arr]).getD h.length [] = arr := by simp [List.getD_eq_getElem?_getD]
    refine ⟨⟨by simp; exact a1, ?_, ?_, ?_⟩, ⟨?_, ?_⟩, rfl, Or.inr rfl⟩
    · simp only [capacity, hg2, ← harr]; simp [hr]
    · show List.take (s.len + 1) ((h ++ [arr]).getD h.length []) = _
      rw [hg2, ← harr, List.take_append, hr, List.take_of_length_le (by omega), a3]
      simp
    · intro j hj; cases hj; simp
    · simp
    · intro j hlt
      have : (h ++ [arr]).getD j [] = h.getD j [] := by
        simp [List.getD_eq_getElem?_getD, List.getElem?_append_left, hlt]
      rw [this]
      exact ⟨rfl, by split <;> rfl⟩

/-- After `append`, what keeps the new slice keeps the old one. -/
theorem append_keeps {α : Type} (grow : Nat → Nat) {h h' : Heap α} {s : Slice} {p : List α} (x : α) (hs : Holds h s p)
    (hk : Keeps (append grow h s x).2 (append grow h s x).1 h') : Keeps s h h' := by
  obtain ⟨_, h2, h3, h4⟩ := append_spec grow x hs
  refine ⟨Nat.le_trans h2.1 hk.1, ?_⟩
  intro a ha
  obtain ⟨x1, x2⟩ := h2.2 a ha
  obtain ⟨y1, y2⟩ := hk.2 a (Nat.lt_of_lt_of_le ha h2.1)
  refine ⟨y1.trans x1, ?_⟩
  rcases h4 with h4 | h4
  · rw [h4, h3] at y2
    by_cases hs : s.arr = some a
    · simp only [hs, if_true] at x2 y2 ⊢
      rw [← x2]
      have := congrArg (List.take s.len) y2
      simpa [List.take_take] using this
    · simp only [hs, if_false] at x2 y2 ⊢
      exact y2.trans x2
  · have hne : (append grow h s x).2.arr ≠ some a := by rw [h4]; intro e; cases e; omega
    rw [if_neg hne] at y2
    rw [y2]; exact x2

theorem report_spec {α : Type} (grow : Nat → Nat) {s : Slice} {p : List α} (l : List α) : ∀ {h : Heap α}, Holds h s p →
    (reportWalk grow s l h).2.map (fun r => r.2) = l.map (fun k => (p ++ [k]).map some) ∧ Keeps s h (reportWalk grow s l h).1 := by
  induction l with
  | nil => intro h hs; exact ⟨rfl, keeps_refl s h⟩
  | cons k ks ih =>
    intro h hs
    obtain ⟨h1, h2, _, _⟩ := append_spec grow k hs
    obtain ⟨i1, i2⟩ := ih (holds_keeps hs h2)
    refine ⟨?_, keeps_trans h2 i2⟩
    simp only [reportWalk, List.map_cons, i1]
    rw [h1.2.2.1]

mutual
theorem walk_spec {α : Type} (grow : Nat → Nat) {s : Slice} {p : List α} : ∀ (w : Walk α) {h : Heap α}, Holds h s p →
    (walk grow s w h).2.map (fun r => r.2) = (positions p w).map (List.map some) ∧ Keeps s h (walk grow s w h).1
  | .mk parts reports, h, hs => by
    obtain ⟨a1, a2⟩ := parts_spec grow parts hs
    obtain ⟨b1, b2⟩ := report_spec grow reports (holds_keeps hs a2)
    refine ⟨?_, keeps_trans a2 b2⟩
    simp only [walk, positions, List.map_append, a1, b1, List.map_map]
    simp
theorem parts_spec {α : Type} (grow : Nat → Nat) {s : Slice} {p : List α} : ∀ (l : List (α × Walk α)) {h : Heap α}, Holds h s p →
    (walkParts grow s l h).2.map (fun r => r.2) = (partPositions p l).map (List.map some) ∧ Keeps s h (walkParts grow s l h).1
  | [], h, hs => ⟨rfl, keeps_refl s h⟩
  | (x, w) :: l, h, hs => by
    obtain ⟨h1, _, _, _⟩ := append_spec grow x hs
    obtain ⟨a1, a2⟩ := walk_spec grow w h1
    have hk := append_keeps grow x hs a2
    obtain ⟨b1, b2⟩ := parts_spec grow l (holds_keeps hs hk)
    refine ⟨?_, keeps_trans hk b2⟩
    simp only [walkParts, partPositions, List.map_append, a1, b1]
end

/-! ### C120: the paths handed to `UnhandledFields` -/

/-- **C120.** During the call, the path is the position of the field: the type, and the names, keys and indexes that lead to it, however arrays grow. -/
theorem C120_during_partial {α : Type} (grow : Nat → Nat) (root : α) (w : Walk α) :
    (start grow root w).2.map (fun r => r.2) = (positions [root] w).map (List.map some) := by
  have h0 : Holds ([] : Heap α) ⟨none, 0⟩ [] := ⟨rfl, Nat.le_refl _, rfl, by simp⟩
  obtain ⟨h1, _⟩ := append_spec grow root h0
  exact (walk_spec grow w h1).1

/-- A value with two unknown fields three levels down. -/
def twoUnknown : Walk Elem :=
  .mk [(.key (lit "A"), .mk [(.key (lit "B"), .mk [] [.key (lit "x"), .key (lit "y")])] [])] []

/-- The slices handed out hold what they should during the calls, and later both hold the second. -/
example : (start goGrow (.other (lit "T")) twoUnknown).2.map (fun r => r.2) =
      [[some (.other (lit "T")), some (.key (lit "A")), some (.key (lit "B")), some (.key (lit "x"))],
       [some (.other (lit "T")), some (.key (lit "A")), some (.key (lit "B")), some (.key (lit "y"))]] ∧
    (start goGrow (.other (lit "T")) twoUnknown).2.map (fun r => read (start goGrow (.other (lit "T")) twoUnknown).1 r.1) =
      [[some (.other (lit "T")), some (.key (lit "A")), some (.key (lit "B")), some (.key (lit "y"))],
       [some (.other (lit "T")), some (.key (lit "A")), some (.key (lit "B")), some (.key (lit "y"))]] := by decide

/-- **C120, violated.** A path kept for later may have become that of another field. -/
theorem C120_kept_violated : ¬ ∀ (α : Type) (root : α) (w : Walk α),
    ∀ r ∈ (start goGrow root w).2, read (start goGrow root w).1 r.1 = r.2 := by
  intro h
  have := h Elem (.other (lit "T")) twoUnknown
  revert this
  decide

/-! ### C121: texts and parents -/

/-- A character that begins an element. -/
def marks (c : Char) : Bool := c = '.' || c = '[' || c = '{'

/-- No character that begins an element. -/
def Elem.plain : Elem → Prop
  | .key s => ∀ c ∈ s, marks c = false
  | .idx _ => True
  | .other s => ∀ c ∈ s, marks c = false

/-- The character an element begins with. -/
def Elem.mark : Elem → Char
  | .key _ => '.'
  | .idx _ => '['
  | .other _ => '{'

/-- What follows it. -/
def Elem.body : Elem → Str
  | .key s => s
  | .idx i => fmtInt i ++ [']']
  | .other s => s ++ ['}']

theorem text_split (e : Elem) : e.text = e.mark :: e.body := by cases e <;> simp [Elem.text, Elem.mark, Elem.body, lit]

theorem mark_marks (e : Elem) : marks e.mark = true := by cases e <;> rfl

theorem digit_plain (c : Char) (h : isDigit c = true) : marks c = false := by
  simp only [isDigit, decide_eq_true_eq] at h
  simp only [marks, Bool.or_eq_false_iff, decide_eq_false_iff_not]
  refine ⟨⟨?_, ?_⟩, ?_⟩ <;> (rintro rfl; revert h; decide)

theorem body_plain (e : Elem) (h : e.plain) : ∀ c ∈ e.body, marks c = false := by
  cases e with
  | key s => exact h
  | idx i =>
    intro c hc
    simp only [Elem.body, List.mem_append, List.mem_singleton] at hc
    rcases hc with hc | hc
    · unfold fmtInt at hc
      split at hc
      · rcases List.mem_cons.1 hc with rfl | hc
        · rfl
        · exact digit_plain c (fmtNat_digits _ c hc)
      · exact digit_plain c (fmtNat_digits _ c hc)
    · subst hc; rfl
  | other s =>
    intro c hc
    simp only [Elem.body, List.mem_append, List.mem_singleton] at hc
    rcases hc with hc | hc
    · exact h c hc
    · subst hc; rfl

theorem elem_eq {a b : Elem} (h1 : a.mark = b.mark) (h2 : a.body = b.body) : a = b := by
  cases a <;> cases b <;> simp [Elem.mark] at h1 <;> simp [Elem.body] at h2 ⊢
  · exact h2
  · exact fmtInt_inj _ _ h2
  · exact h2

theorem loop_eq (p : List Elem) : ∀ out, textLoop p out = out ++ (p.map Elem.text).flatten := by
  induction p with
  | nil => simp [textLoop]
  | cons e p ih => intro out; simp [textLoop, ih]

/-- The texts of plain elements one after the other determine them. -/
theorem flat_inj : ∀ (p q : List Elem), (∀ e ∈ p, e.plain) → (∀ e ∈ q, e.plain) → (p.map Elem.text).flatten = (q.map Elem.text).flatten → p = q
  | [], [], _, _, _ => rfl
  | [], e :: q, _, _, h => by simp [text_split] at h
  | e :: p, [], _, _, h => by simp [text_split] at h
  | a :: p, b :: q, hp, hq, h => by
    simp only [List.map_cons, List.flatten_cons, text_split, List.cons_append, List.cons.injEq] at h
    obtain ⟨h1, h2⟩ := h
    have key : ∀ (e : Elem) (l : List Elem), e.plain →
        (e.body ++ (l.map Elem.text).flatten).takeWhile (fun c => !marks c) = e.body ∧ (e.body ++ (l.map Elem.text).flatten).dropWhile (fun c => !marks c) = (l.map Elem.text).flatten := by
      intro e l he
      have hb : ∀ c ∈ e.body, (!marks c) = true := by intro c hc; simp [body_plain e he c hc]
      rw [List.takeWhile_append_of_pos hb, List.dropWhile_append_of_pos hb]
      cases l with
      | nil => simp
      | cons x l => simp [text_split, mark_marks]
    obtain ⟨k1, k2⟩ := key a p (hp a (by simp))
    obtain ⟨k3, k4⟩ := key b q (hq b (by simp))
    rw [h2] at k1 k2
    rw [elem_eq h1 (k1.symm.trans k3), flat_inj p q (fun e he => hp e (by simp [he])) (fun e he => hq e (by simp [he])) (k2.symm.trans k4)]

theorem text_root (root : Str) (p : List Elem) : text (.other root :: p) = lit "{" ++ root ++ lit "}" ++ (p.map Elem.text).flatten := by
  unfold text
  simp [loop_eq, Elem.text, lit, trimDot]

/-- A name as Go allows it for a field, as far as it matters here. -/
def Place.named : Place → Prop
  | .field n => n ≠ lit "#val" ∧ ∀ c ∈ n, marks c = false
  | _ => True

/-- A step that is not into a map. -/
def Place.shown : Place → Prop
  | .value _ => False
  | _ => True

theorem place_inj : ∀ (l m : List Place), (∀ x ∈ l, x.shown) → (∀ x ∈ m, x.shown) → l.map Place.elem = m.map Place.elem → l = m
  | [], [], _, _, _ => rfl
  | [], _ :: _, _, _, h => by simp at h
  | _ :: _, [], _, _, h => by simp at h
  | a :: l, b :: m, hl, hm, h => by
    simp only [List.map_cons, List.cons.injEq] at h
    have ha := hl a (by simp)
    have hb := hm b (by simp)
    have : a = b := by
      cases a <;> cases b <;> simp_all [Place.elem, Place.shown]
      exact Int.ofNat.inj h.1
    rw [this, place_inj l m (fun x hx => hl x (by simp [hx])) (fun x hx => hm x (by simp [hx])) h.2]

theorem place_plain (x : Place) (h : x.named) : x.elem.plain := by
  cases x with
  | field n => exact h.2
  | index i => trivial
  | value k => show ∀ c ∈ lit "#val", marks c = false; decide

/-- **C121.** The path in an error tells the place: structs, lists and arrays. -/
theorem C121_place_partial (root : Str) (l m : List Place) (hl : ∀ x ∈ l, x.named ∧ x.shown) (hm : ∀ x ∈ m, x.named ∧ x.shown)
    (h : placeText root l = placeText root m) : l = m := by
  unfold placeText at h
  rw [text_root, text_root] at h
  have h := List.append_cancel_left h
  refine place_inj l m (fun x hx => (hl x hx).2) (fun x hx => (hm x hx).2) (flat_inj _ _ ?_ ?_ h)
  · intro e he
    obtain ⟨x, hx, rfl⟩ := List.mem_map.1 he
    exact place_plain x (hl x hx).1
  · intro e he
    obtain ⟨x, hx, rfl⟩ := List.mem_map.1 he
    exact place_plain x (hm x hx).1

example : placeText (lit "main.T") [.field (lit "List"), .index 12, .field (lit "Name")] = lit "{main.T}.List[12].Name" := by
  simp [placeText, text, textLoop, Elem.text, Place.elem, lit, trimDot, fmtInt, fmtNat, digit]

/-- Two places have the same text only if they are the same but for the keys of maps. -/
theorem C121_keys_partial (root : Str) (l m : List Place) (hl : ∀ x ∈ l, x.named) (hm : ∀ x ∈ m, x.named)
    (h : placeText root l = placeText root m) : l.map Place.elem = m.map Place.elem := by
  unfold placeText at h
  rw [text_root, text_root] at h
  have h := List.append_cancel_left h
  refine flat_inj _ _ ?_ ?_ h
  · intro e he
    obtain ⟨x, hx, rfl⟩ := List.mem_map.1 he
    exact place_plain x (hl x hx)
  · intro e he
    obtain ⟨x, hx, rfl⟩ := List.mem_map.1 he
    exact place_plain x (hm x hx)

/-- **C121.** The empty path has a name; one that begins with a key begins with its text, without a dot. -/
theorem C121_begin_partial (k : Str) (p : List Elem) : text [] = lit "ROOT" ∧ text (.key k :: p) = k ++ (p.map Elem.text).flatten := by
  refine ⟨rfl, ?_⟩
  have key : ∀ (p : List Elem) (out : Str), textLoop p out = out ++ (p.map Elem.text).flatten := by
    intro p
    induction p with
    | nil => intro out; simp [textLoop]
    | cons e p ih => intro out; simp [textLoop, ih]
  unfold text
  simp only [key, List.map_cons, List.flatten_cons, Elem.text]
  rw [if_neg (by simp [lit])]
  simp [lit, trimDot]

/-- Steps into fields and lists, as C121 has them. -/
example : (∀ x ∈ [Place.field (lit "Name"), .value (lit "k")], x.named) ∧ ¬ (Place.field (lit "#val")).named ∧ ¬ (Place.field (lit "a.b")).named := by
  simp only [List.mem_cons, List.not_mem_nil, or_false, forall_eq_or_imp, forall_eq, Place.named]
  exact ⟨⟨by decide, trivial⟩, by decide, by decide⟩

/-- **C121, violated.** The path does not tell under which key of a map it went wrong. -/
theorem C121_map_violated (root : Str) : ¬ ∀ l m : List Place, (∀ x ∈ l, x.named) → (∀ x ∈ m, x.named) → placeText root l = placeText root m → l = m := by
  intro h
  have := h [.value (lit "a")] [.value (lit "b")] (by simp [Place.named]) (by simp [Place.named]) rfl
  revert this; decide

/-- **C121, violated.** The parent of a path is never the path without its last element, if it has one: the root's panics, others lose two. -/
theorem C121_parent_violated (p : List Elem) (x : Elem) : parent (p ++ [x]) ≠ .ok p ∧
    parent (p ++ [x]) = if p = [] then .error .slice else .ok p.dropLast := by
  have hp : parent (p ++ [x]) = if p = [] then .error .slice else .ok p.dropLast := by
    unfold parent Go.slice
    rcases List.eq_nil_or_concat p with rfl | ⟨q, y, rfl⟩
    · simp
    · have hl : ((q ++ [y] ++ [x] : List Elem).length : Int) - 2 = (q.length : Int) := by simp
      rw [List.concat_eq_append, if_pos (by simp), hl, if_pos ⟨by omega, by omega, by simp; omega⟩, if_neg (by simp)]
      simp
  refine ⟨?_, hp⟩
  rw [hp]
  split
  · simp
  · rename_i hne
    intro e
    have := congrArg (fun r : Go (List Elem) => match r with | .ok l => l.length | .error _ => 0) e
    simp at this
    cases p with
    | nil => exact hne rfl
    | cons a l => simp at this

end Verif.Enc.Paths

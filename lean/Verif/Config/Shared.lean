import Verif.Config.Props
/-!
# Configurations loaded from the same values (C157)

`From` copies the struct it is given (config/config.go L21), which copies the headers of its slices and not their elements; values
are then appended to them (L120). Model.lean has slices as values. Here they are headers into arrays: `append` writes into the array
if it has room, and makes a new one otherwise.
-/
set_option autoImplicit false
set_option linter.unusedSectionVars false
set_option linter.unusedSimpArgs false
namespace Verif.Config.Shared
open Verif.Strconv Verif.Enc Verif.Config

/-- The arrays behind slices, each as long as its capacity. config/config.go L112-121. -/
abbrev Arrays := List (List CVal)

/-- What a field of a configuration holds: a slice is a header (array, where it starts, length); anything else, also a nil slice, is
a value. config/config.go L56. -/
inductive Cell where
  | val (v : CVal)
  | slice (arr off len : Nat)

/-- The array of a header. -/
def arrOf (H : Arrays) (a : Nat) : List CVal := H[a]?.getD []

/-- The value a field has. -/
def Cell.read (H : Arrays) : Cell → CVal
  | .val v => v
  | .slice a o n => .slice (some (((arrOf H a).drop o).take n))

/-- `reflect.Append(x, v)` (config/config.go L120): in the array if there is room, in a new one otherwise; `grow` gives the capacity
of the new one (at least what is needed), `z` fills it. -/
def append (grow : Nat → Nat) (z : CVal) (H : Arrays) (c : Cell) (v : CVal) : Arrays × Cell :=
  let new (l : List CVal) : Arrays × Cell :=
    (H ++ [l ++ v :: List.replicate (grow l.length - (l.length + 1)) z], .slice H.length 0 (l.length + 1))
  match c with
  | .val old => new old.elems
  | .slice a o n =>
    if o + n < (arrOf H a).length then (H.set a ((arrOf H a).set (o + n) v), .slice a o (n + 1))
    else new (((arrOf H a).drop o).take n)

/-- The loop over the parts (config/config.go L113-121): what was appended before a failure stays in the array. -/
def appendParts (grow : Nat → Nat) (z : CVal) (parse : Str → Except Stop CVal) : Arrays → Cell → List Str → Arrays × Except Stop Cell
  | H, c, [] => (H, .ok c)
  | H, c, el :: els => match parse el with
    | .error e => (H, .error e)
    | .ok v => let r := append grow z H c v; appendParts grow z parse r.1 r.2 els

/-- `unmarshalText` (config/config.go L72-143) on a field. The elements of a slice start from zero values of their own (L115), so
what is below them is not shared. What a method of the type makes is taken to be memory of its own. -/
def unmarshalCell (custom : Nat → CVal → Str → Except Stop CVal) (grow : Nat → Nat) (H : Arrays) : CTy → Cell → Str → Arrays × Except Stop Cell
  | .slice e, c, val =>
    if val ≠ [] then appendParts grow (zero e) (fun el => unmarshalText custom e (zero e) el) H c (splitOn ',' val) else (H, .ok c)
  | .stdText id kind, c, val =>
    if val ≠ [] then (H, (custom id (c.read H) val).map .val) else unmarshalCell custom grow H kind c val
  | .map p e, c, val => if val ≠ [] then (H, (unmarshalText custom (.map p e) (c.read H) val).map .val) else (H, .ok c)
  | t, c, val => (H, (unmarshalText custom t (c.read H) val).map .val)

/-- One turn of the loop of `From` (config/config.go L27-64). -/
def loadCell (custom : Nat → CVal → Str → Except Stop CVal) (grow : Nat → Nat) (f : Str → Str) (H : Arrays) (fd : Field) (c : Cell) : Arrays × Except Stop Cell :=
  if fd.tag = [] then (H, .ok c)
  else
    let parts := splitOn ',' fd.tag
    let key := parts.headD []
    match parseOpts parts.tail none with
    | none => (H, .error .err)
    | some def? =>
      let val := f key
      match (if val = [] then def? else some val) with
      | none => (H, .error .err)
      | some val => if fd.exported then unmarshalCell custom grow H fd.ty c val else (H, .error .panic)

/-- `From` on a struct (config/config.go L21-66): the arrays after the call, the fields of the copy, and how it stopped, if it did. -/
def loadCells (custom : Nat → CVal → Str → Except Stop CVal) (grow : Nat → Nat) (f : Str → Str) : Arrays → List Field → List Cell → Arrays × List Cell × Option Stop
  | H, fd :: fds, c :: cs => match loadCell custom grow f H fd c with
    | (H, .error e) => (H, c :: cs, some e)
    | (H, .ok c') => let r := loadCells custom grow f H fds cs; (r.1, c' :: r.2.1, r.2.2)
  | H, _, cs => (H, cs, none)

/-- Several configurations from the same values, one after the other, each from a source of its own. config/config.go L21. -/
def loadAll (custom : Nat → CVal → Str → Except Stop CVal) (grow : Nat → Nat) (fds : List Field) (cs : List Cell) : Arrays → List (Str → Str) → Arrays × List (List Cell × Option Stop)
  | H, [] => (H, [])
  | H, f :: fs =>
    let r := loadCells custom grow f H fds cs
    let q := loadAll custom grow fds cs r.1 fs
    (q.1, r.2 :: q.2)

/-! ### What a load writes -/

/-- Positions behind the elements of a slice, in the capacity of its array. -/
def Room (H : Arrays) (c : Cell) (a j : Nat) : Prop :=
  match c with
  | .val _ => False
  | .slice b o n => b = a ∧ o + n ≤ j ∧ j < (arrOf H a).length

/-- Positions of the elements of a slice. -/
def Own (c : Cell) (a j : Nat) : Prop :=
  match c with
  | .val _ => False
  | .slice b o n => b = a ∧ o ≤ j ∧ j < o + n

/-- `H'` has the arrays of `H`, of the same length, changed at most at the positions `P`. -/
structure Frame (P : Nat → Nat → Prop) (H H' : Arrays) : Prop where
  len : H.length ≤ H'.length
  size : ∀ a, a < H.length → (arrOf H' a).length = (arrOf H a).length
  same : ∀ a, a < H.length → ∀ j, ¬ P a j → (arrOf H' a)[j]? = (arrOf H a)[j]?

theorem Frame.refl (P : Nat → Nat → Prop) (H : Arrays) : Frame P H H := ⟨Nat.le_refl _, fun _ _ => rfl, fun _ _ _ _ => rfl⟩

theorem Frame.trans {P Q : Nat → Nat → Prop} {H H' H'' : Arrays} (h : Frame P H H') (h' : Frame Q H' H'')
    (hq : ∀ a j, a < H.length → Q a j → P a j) : Frame P H H'' :=
  ⟨Nat.le_trans h.len h'.len, fun a ha => (h'.size a (Nat.lt_of_lt_of_le ha h.len)).trans (h.size a ha),
    fun a ha j hj => (h'.same a (Nat.lt_of_lt_of_le ha h.len) j (fun hx => hj (hq a j ha hx))).trans (h.same a ha j hj)⟩

theorem Frame.mono {P Q : Nat → Nat → Prop} {H H' : Arrays} (h : Frame P H H') (hq : ∀ a j, P a j → Q a j) : Frame Q H H' :=
  ⟨h.len, h.size, fun a ha j hj => h.same a ha j (fun hx => hj (hq a j hx))⟩

/-- Headers into arrays there are, within their capacity. -/
def Cell.OK (H : Arrays) : Cell → Prop
  | .val _ => True
  | .slice a o n => a < H.length ∧ o + n ≤ (arrOf H a).length

theorem Frame.ok {P : Nat → Nat → Prop} {H H' : Arrays} (h : Frame P H H') : ∀ {c : Cell}, c.OK H → c.OK H'
  | .val _, _ => trivial
  | .slice a _ _, hc => ⟨Nat.lt_of_lt_of_le hc.1 h.len, by rw [h.size a hc.1]; exact hc.2⟩

/-- A slice none of whose elements is at the changed positions reads as before. -/
theorem Frame.read {P : Nat → Nat → Prop} {H H' : Arrays} (h : Frame P H H') : ∀ {c : Cell}, c.OK H → (∀ a j, Own c a j → ¬ P a j) →
    c.read H' = c.read H
  | .val _, _, _ => rfl
  | .slice a o n, hc, hp => by
    simp only [Cell.read]
    congr 2
    apply List.ext_getElem?
    intro j
    rw [List.getElem?_take, List.getElem?_take]
    split
    · next hj => rw [List.getElem?_drop, List.getElem?_drop]; exact h.same a hc.1 _ (hp a _ ⟨rfl, by omega, by omega⟩)
    · rfl

theorem arrOf_append {H : Arrays} {a : Nat} (h : a < H.length) (l : List CVal) : arrOf (H ++ [l]) a = arrOf H a := by
  unfold arrOf
  rw [List.getElem?_append_left h]

theorem arrOf_set_self {H : Arrays} {a : Nat} (h : a < H.length) (l : List CVal) : arrOf (H.set a l) a = l := by
  unfold arrOf
  rw [List.getElem?_set_self h]
  rfl

theorem arrOf_set_ne {H : Arrays} {a b : Nat} (h : a ≠ b) (l : List CVal) : arrOf (H.set a l) b = arrOf H b := by
  unfold arrOf
  rw [List.getElem?_set_ne h]

/-- What one `append` does: it writes in the room of the slice only, what it returns reads as one element more, and its own positions
are old ones, old room, or in a new array. -/
theorem append_spec (grow : Nat → Nat) (z : CVal) (H : Arrays) (c : Cell) (v : CVal) (hc : c.OK H) :
    Frame (Room H c) H (append grow z H c v).1 ∧ (append grow z H c v).2.OK (append grow z H c v).1 ∧
    (append grow z H c v).2.read (append grow z H c v).1 = .slice (some ((c.read H).elems ++ [v])) ∧
    (∀ a j, a < H.length → Own (append grow z H c v).2 a j → Own c a j ∨ Room H c a j) ∧
    (∀ a j, a < H.length → Room (append grow z H c v).1 (append grow z H c v).2 a j → Room H c a j) := by
  have new : ∀ l : List CVal, Frame (Room H c) H (H ++ [l ++ v :: List.replicate (grow l.length - (l.length + 1)) z]) ∧
      (Cell.slice H.length 0 (l.length + 1)).OK (H ++ [l ++ v :: List.replicate (grow l.length - (l.length + 1)) z]) ∧
      (Cell.slice H.length 0 (l.length + 1)).read (H ++ [l ++ v :: List.replicate (grow l.length - (l.length + 1)) z]) = .slice (some (l ++ [v])) := by
    intro l
    have hn : ∀ m : List CVal, arrOf (H ++ [m]) H.length = m := by intro m; unfold arrOf; simp
    refine ⟨⟨by simp, fun a ha => by rw [arrOf_append ha], fun a ha j _ => by rw [arrOf_append ha]⟩, ⟨by simp, ?_⟩, ?_⟩
    · rw [hn]; simp
    · simp only [Cell.read]
      rw [hn, List.drop_zero]
      congr 2
      rw [List.take_append, List.take_of_length_le (by omega)]
      simp
  cases c with
  | val old =>
    obtain ⟨h1, h2, h3⟩ := new old.elems
    refine ⟨h1, h2, h3, ?_, ?_⟩
    · intro a j ha ho
      simp only [append, Own] at ho
      omega
    · intro a j ha ho
      simp only [append, Room] at ho
      omega
  | slice a o n =>
    unfold append
    simp only
    split
    · next hlt =>
      refine ⟨⟨by simp, ?_, ?_⟩, ⟨by simpa using hc.1, ?_⟩, ?_, ?_, ?_⟩
      · intro b hb
        by_cases hab : a = b
        · subst hab; rw [arrOf_set_self hb]; simp
        · rw [arrOf_set_ne hab]
      · intro b hb j hj
        by_cases hab : a = b
        · subst hab
          rw [arrOf_set_self hb]
          refine List.getElem?_set_ne ?_
          rintro rfl
          exact hj ⟨rfl, Nat.le_refl _, hlt⟩
        · rw [arrOf_set_ne hab]
      · simp only [arrOf_set_self hc.1, List.length_set]; omega
      · simp only [Cell.read, CVal.elems]
        rw [arrOf_set_self hc.1]
        congr 2
        apply List.ext_getElem?
        intro j
        rw [List.getElem?_take, List.getElem?_drop, List.getElem?_append]
        have hl : (List.take n (List.drop o (arrOf H a))).length = n := by simp; omega
        rw [hl]
        by_cases hj : j < n
        · rw [if_pos (by omega), if_pos hj, List.getElem?_take, if_pos hj, List.getElem?_drop, List.getElem?_set_ne (by omega)]
        · rw [if_neg hj]
          by_cases hjn : j = n
          · subst hjn
            rw [if_pos (by omega), List.getElem?_set_self hlt]
            simp
          · rw [if_neg (by omega), List.getElem?_eq_none (by simp; omega)]
      · rintro b j hb ⟨rfl, h1, h2⟩
        by_cases hj : j < o + n
        · exact .inl ⟨rfl, h1, hj⟩
        · exact .inr ⟨rfl, by omega, by omega⟩
      · rintro b j hb ⟨rfl, h1, h2⟩
        rw [arrOf_set_self hc.1, List.length_set] at h2
        exact ⟨rfl, by omega, h2⟩
    · obtain ⟨h1, h2, h3⟩ := new (((arrOf H a).drop o).take n)
      refine ⟨h1, h2, h3, ?_, ?_⟩
      · rintro b j hb ⟨rfl, _⟩; exact absurd hb (Nat.lt_irrefl _)
      · rintro b j hb ⟨rfl, _⟩; exact absurd hb (Nat.lt_irrefl _)

/-- What a load of a field does, in terms of the value semantics of Model.lean. -/
structure Loaded (H : Arrays) (c : Cell) (r : Arrays × Except Stop Cell) (want : Except Stop CVal) : Prop where
  frame : Frame (Room H c) H r.1
  err : ∀ e, r.2 = .error e ↔ want = .error e
  ok : ∀ c', r.2 = .ok c' → c'.OK r.1 ∧ want = .ok (c'.read r.1) ∧
    (∀ a j, a < H.length → Own c' a j → Own c a j ∨ Room H c a j) ∧ (∀ a j, a < H.length → Room r.1 c' a j → Room H c a j)

theorem Loaded.pure {H : Arrays} {c : Cell} (hc : c.OK H) : Loaded H c (H, .ok c) (.ok (c.read H)) :=
  ⟨Frame.refl _ _, by simp, by intro c' h; cases h; exact ⟨hc, rfl, fun _ _ _ => .inl, fun _ _ _ => id⟩⟩

theorem Loaded.map (H : Arrays) (c : Cell) (w : Except Stop CVal) : Loaded H c (H, w.map .val) w := by
  cases w with
  | error e => exact ⟨Frame.refl _ _, by simp [Except.map], by intro c' h; cases h⟩
  | ok v => exact ⟨Frame.refl _ _, by simp [Except.map], by intro c' h; cases h; exact ⟨trivial, rfl, fun _ _ _ h => h.elim, fun _ _ _ h => h.elim⟩⟩

theorem Loaded.fail (H : Arrays) (c : Cell) (e : Stop) : Loaded H c (H, .error e) (.error e) :=
  ⟨Frame.refl _ _, fun x => by simp, by intro c' h; cases h⟩

theorem appendParts_spec (grow : Nat → Nat) (z : CVal) (parse : Str → Except Stop CVal) : ∀ (els : List Str) (H : Arrays) (c : Cell) (l : List CVal),
    c.OK H → c.read H = .slice (some l) →
    Loaded H c (appendParts grow z parse H c els) ((parseParts parse els).map fun vs => .slice (some (l ++ vs)))
  | [], H, c, l, hc, hl => by
    have := Loaded.pure hc
    rw [hl] at this
    simpa [appendParts, parseParts, Except.map] using this
  | el :: els, H, c, l, hc, hl => by
    unfold appendParts parseParts
    cases parse el with
    | error e => exact Loaded.fail H c e
    | ok v =>
      obtain ⟨f1, o1, r1, w1, m1⟩ := append_spec grow z H c v hc
      simp only
      rw [hl] at r1
      have ih := appendParts_spec grow z parse els _ _ (l ++ [v]) o1 r1
      refine ⟨f1.trans ih.frame fun a j ha hr => m1 a j ha hr, ?_, ?_⟩
      · intro e
        rw [ih.err e]
        cases parseParts parse els <;> simp [Except.map]
      · intro c' hc'
        obtain ⟨h1, h2, h3, h4⟩ := ih.ok c' hc'
        refine ⟨h1, ?_, ?_, ?_⟩
        · rw [← h2]
          cases parseParts parse els <;> simp [Except.map]
        · intro a j ha ho
          rcases h3 a j (Nat.lt_of_lt_of_le ha f1.len) ho with ho | ho
          · exact w1 a j ha ho
          · exact .inr (m1 a j ha ho)
        · intro a j ha ho
          exact m1 a j ha (h4 a j (Nat.lt_of_lt_of_le ha f1.len) ho)

theorem splitOn_cons (val : Str) : ∃ p ps, splitOn ',' val = p :: ps := by
  cases h : splitOn ',' val with
  | nil => exact absurd h (splitOn_ne_nil _ _)
  | cons p ps => exact ⟨p, ps, rfl⟩

theorem unmarshalCell_spec (custom : Nat → CVal → Str → Except Stop CVal) (grow : Nat → Nat) (H : Arrays) : ∀ (t : CTy) (c : Cell) (val : Str), c.OK H →
    Loaded H c (unmarshalCell custom grow H t c val) (unmarshalText custom t (c.read H) val)
  | .slice e, c, val, hc => by
    rw [unmarshalCell, unmarshalText]
    split
    · obtain ⟨p, ps, hp⟩ := splitOn_cons val
      rw [hp]
      generalize (fun el => unmarshalText custom e (zero e) el) = parse
      unfold appendParts parseParts
      cases parse p with
      | error x => exact Loaded.fail H c x
      | ok v =>
        simp only
        obtain ⟨f1, o1, r1, w1, m1⟩ := append_spec grow (zero e) H c v hc
        have ih := appendParts_spec grow (zero e) parse ps _ _ _ o1 r1
        refine ⟨f1.trans ih.frame fun a j ha hr => m1 a j ha hr, ?_, ?_⟩
        · intro x
          rw [ih.err x]
          cases parseParts parse ps <;> simp [Except.map]
        · intro c' hc'
          obtain ⟨h1, h2, h3, h4⟩ := ih.ok c' hc'
          refine ⟨h1, ?_, ?_, ?_⟩
          · rw [← h2]
            cases parseParts parse ps <;> simp [Except.map]
          · intro a j ha ho
            rcases h3 a j (Nat.lt_of_lt_of_le ha f1.len) ho with ho | ho
            · exact w1 a j ha ho
            · exact .inr (m1 a j ha ho)
          · intro a j ha ho
            exact m1 a j ha (h4 a j (Nat.lt_of_lt_of_le ha f1.len) ho)
    · exact Loaded.pure hc
  | .stdText id kind, c, val, hc => by
    unfold unmarshalCell unmarshalText
    split
    · exact Loaded.map _ _ _
    · exact unmarshalCell_spec custom grow H kind c val hc
  | .map p e, c, val, hc => by
    unfold unmarshalCell
    split
    · exact Loaded.map _ _ _
    · next h =>
      have : unmarshalText custom (.map p e) (c.read H) val = .ok (c.read H) := by
        unfold unmarshalText
        exact if_neg h
      rw [this]
      exact Loaded.pure hc
  | .bool _, c, val, hc => by unfold unmarshalCell; exact Loaded.map _ _ _
  | .int _, c, val, hc => by unfold unmarshalCell; exact Loaded.map _ _ _
  | .str, c, val, hc => by unfold unmarshalCell; exact Loaded.map _ _ _
  | .ctxText _ _, c, val, hc => by unfold unmarshalCell; exact Loaded.map _ _ _
  | .other, c, val, hc => by unfold unmarshalCell; exact Loaded.map _ _ _

theorem loadCell_spec (custom : Nat → CVal → Str → Except Stop CVal) (grow : Nat → Nat) (f : Str → Str) (H : Arrays) (fd : Field) (c : Cell) (hc : c.OK H) :
    Loaded H c (loadCell custom grow f H fd c) (loadField custom f fd (c.read H)) := by
  unfold loadCell loadField
  split
  · exact Loaded.pure hc
  · simp only
    cases parseOpts (splitOn ',' fd.tag).tail none with
    | none => exact Loaded.fail _ _ _
    | some def? =>
      simp only
      generalize (if f ((splitOn ',' fd.tag).headD []) = [] then def? else some (f ((splitOn ',' fd.tag).headD []))) = w
      cases w with
      | none => exact Loaded.fail _ _ _
      | some val =>
        simp only
        split
        · exact unmarshalCell_spec custom grow H _ c _ hc
        · exact Loaded.fail _ _ _

/-- No element and no room of one field is in the room of another. -/
def Apart (H : Arrays) (cs : List Cell) : Prop :=
  cs.Pairwise fun c d => ∀ a j, (Room H c a j → ¬ Own d a j ∧ ¬ Room H d a j) ∧ (Room H d a j → ¬ Own c a j)

theorem room_frame {P : Nat → Nat → Prop} {H H' : Arrays} (h : Frame P H H') {c : Cell} (hc : c.OK H) (a j : Nat) : Room H' c a j ↔ Room H c a j := by
  cases c with
  | val _ => exact Iff.rfl
  | slice b o n =>
    unfold Room
    constructor
    · rintro ⟨rfl, h1, h2⟩; exact ⟨rfl, h1, by rw [h.size b hc.1] at h2; exact h2⟩
    · rintro ⟨rfl, h1, h2⟩; exact ⟨rfl, h1, by rw [h.size b hc.1]; exact h2⟩

theorem ok_lt {H : Arrays} {c : Cell} (hc : c.OK H) {a j : Nat} (h : Own c a j ∨ Room H c a j) : a < H.length := by
  cases c with
  | val _ => rcases h with h | h <;> exact h.elim
  | slice b o n => rcases h with ⟨rfl, _⟩ | ⟨rfl, _⟩ <;> exact hc.1

/-- What a load of a struct does. -/
theorem loadCells_spec (custom : Nat → CVal → Str → Except Stop CVal) (grow : Nat → Nat) (f : Str → Str) : ∀ (fds : List Field) (cs : List Cell) (H : Arrays),
    (∀ c ∈ cs, c.OK H) → Frame (fun a j => ∃ c ∈ cs, Room H c a j) H (loadCells custom grow f H fds cs).1 ∧
      (∀ c ∈ (loadCells custom grow f H fds cs).2.1, c.OK (loadCells custom grow f H fds cs).1 ∧
        ∀ a j, a < H.length → Own c a j → ∃ d ∈ cs, Own d a j ∨ Room H d a j) ∧
      (Apart H cs → ((loadCells custom grow f H fds cs).2.1.map (·.read (loadCells custom grow f H fds cs).1), (loadCells custom grow f H fds cs).2.2) =
        load custom f fds (cs.map (·.read H)))
  | [], cs, H, hc => by
    simp only [loadCells]
    refine ⟨Frame.refl _ _, fun c h => ⟨hc c h, fun a j _ ho => ⟨c, h, .inl ho⟩⟩, fun _ => ?_⟩
    cases cs <;> rfl
  | _ :: _, [], H, _ => by
    refine ⟨Frame.refl _ _, ?_, fun _ => rfl⟩
    intro c h
    exact absurd h (List.not_mem_nil)
  | fd :: fds, c :: cs, H, hc => by
    have h := loadCell_spec custom grow f H fd c (hc c (by simp))
    unfold loadCells
    cases hr : loadCell custom grow f H fd c with
    | mk H1 r =>
    rw [hr] at h
    have hf1 : Frame (fun a j => ∃ d ∈ c :: cs, Room H d a j) H H1 := h.frame.mono fun a j hx => ⟨c, by simp, hx⟩
    cases r with
    | error e =>
      simp only
      refine ⟨hf1, fun d hd => ⟨hf1.ok (hc d hd), fun a j _ ho => ⟨d, hd, .inl ho⟩⟩, fun hap => ?_⟩
      have hw := (h.err e).1 rfl
      simp only [load, List.map_cons]
      rw [hw]
      simp only
      have hh : ∀ d ∈ c :: cs, d.read H1 = d.read H := by
        intro d hd
        refine h.frame.read (hc d hd) ?_
        intro a j ho hroom
        rcases List.mem_cons.1 hd with rfl | hd
        · cases d with
          | val _ => exact ho.elim
          | slice b o n => exact absurd ho.2.2 (by have := hroom.2.1; omega)
        · exact ((List.pairwise_cons.1 hap).1 d hd a j).1 hroom |>.1 ho
      rw [hh c (by simp)]
      congr 2
      exact List.map_congr_left fun d hd => hh d (by simp [hd])
    | ok c' =>
      simp only
      obtain ⟨ok', hw, hown, hroom⟩ := h.ok c' rfl
      have hc1 : ∀ d ∈ cs, d.OK H1 := fun d hd => hf1.ok (hc d (by simp [hd]))
      obtain ⟨g1, g2, g3⟩ := loadCells_spec custom grow f fds cs H1 hc1
      refine ⟨?_, ?_, ?_⟩
      · refine hf1.trans g1 ?_
        rintro a j ha ⟨d, hd, hx⟩
        exact ⟨d, by simp [hd], (room_frame hf1 (hc d (by simp [hd])) a j).1 hx⟩
      · intro d hd
        rcases List.mem_cons.1 hd with rfl | hd
        · refine ⟨g1.ok ok', fun a j ha ho => ?_⟩
          rcases hown a j ha ho with ho | ho
          · exact ⟨c, by simp, .inl ho⟩
          · exact ⟨c, by simp, .inr ho⟩
        · obtain ⟨k1, k2⟩ := g2 d hd
          refine ⟨k1, fun a j ha ho => ?_⟩
          obtain ⟨x, hx, hxo⟩ := k2 a j (Nat.lt_of_lt_of_le ha hf1.len) ho
          refine ⟨x, by simp [hx], ?_⟩
          rcases hxo with hxo | hxo
          · exact .inl hxo
          · exact .inr ((room_frame hf1 (hc x (by simp [hx])) a j).1 hxo)
      · intro hap
        obtain ⟨hap1, hap2⟩ := List.pairwise_cons.1 hap
        have hap' : Apart H1 cs := by
          refine List.Pairwise.imp_of_mem ?_ hap2
          intro x y hx hy hxy a j
          rw [room_frame hf1 (hc x (by simp [hx])), room_frame hf1 (hc y (by simp [hy]))]
          exact hxy a j
        have hread : ∀ d ∈ cs, d.read H1 = d.read H := fun d hd =>
          h.frame.read (hc d (by simp [hd])) fun a j ho hx => ((hap1 d hd a j).1 hx).1 ho
        have ih := g3 hap'
        simp only [load, List.map_cons]
        rw [hw]
        simp only
        rw [List.map_congr_left hread] at ih
        have e1 := congrArg Prod.fst ih
        have e2 := congrArg Prod.snd ih
        simp only at e1 e2
        rw [← e1, ← e2]
        congr 2
        refine g1.read ok' ?_
        rintro a j ho ⟨d, hd, hx⟩
        have hx' := (room_frame hf1 (hc d (by simp [hd])) a j).1 hx
        have ha : a < H.length := ok_lt (hc d (by simp [hd])) (.inr hx')
        rcases hown a j ha ho with ho | ho
        · exact (hap1 d hd a j).2 hx' ho
        · exact ((hap1 d hd a j).1 ho).2 hx'

/-! ### Properties -/

/-- C157: loading a configuration from values whose slices do not overlap gives the fields and the outcome that the model with slices
as values gives. -/
theorem C157_alone (custom : Nat → CVal → Str → Except Stop CVal) (grow : Nat → Nat) (f : Str → Str) (fds : List Field) (cs : List Cell) (H : Arrays)
    (hc : ∀ c ∈ cs, c.OK H) (ha : Apart H cs) :
    ((loadCells custom grow f H fds cs).2.1.map (·.read (loadCells custom grow f H fds cs).1), (loadCells custom grow f H fds cs).2.2) =
      load custom f fds (cs.map (·.read H)) := (loadCells_spec custom grow f fds cs H hc).2.2 ha

/-- C157: a load writes at most behind the elements of the slices it was given: those values, and every slice that does not reach
into their spare capacity, read as before, also if the load fails. -/
theorem C157_keeps (custom : Nat → CVal → Str → Except Stop CVal) (grow : Nat → Nat) (f : Str → Str) (fds : List Field) (cs : List Cell) (H : Arrays)
    (hc : ∀ c ∈ cs, c.OK H) (d : Cell) (hd : d.OK H) (hr : ∀ c ∈ cs, ∀ a j, Own d a j → ¬ Room H c a j) :
    d.read (loadCells custom grow f H fds cs).1 = d.read H :=
  (loadCells_spec custom grow f fds cs H hc).1.read hd fun a j ho ⟨c, hc, hx⟩ => hr c hc a j ho hx

/-- Slices without spare capacity. -/
def Full (H : Arrays) : Cell → Prop
  | .val _ => True
  | .slice a o n => o + n = (arrOf H a).length

/-- C157: configurations loaded from the same values, whose slices have no spare capacity, are independent: at the end each has the
fields, and each load had the outcome, as if it were the only one.
What is missing: with spare capacity they are not, see `C157_shared_violated`. -/
theorem C157_independent_partial (custom : Nat → CVal → Str → Except Stop CVal) (grow : Nat → Nat) (fds : List Field) (cs : List Cell) (H : Arrays)
    (hc : ∀ c ∈ cs, c.OK H ∧ Full H c) (fs : List (Str → Str)) :
    (loadAll custom grow fds cs H fs).2.map (fun r => (r.1.map (·.read (loadAll custom grow fds cs H fs).1), r.2)) =
      fs.map fun f => load custom f fds (cs.map (·.read H)) := by
  have noroom : ∀ (H' : Arrays), (∀ a, a < H.length → (arrOf H' a).length = (arrOf H a).length) → ∀ c ∈ cs, ∀ a j, ¬ Room H' c a j := by
    intro H' hs c hcc a j hx
    obtain ⟨h1, h2⟩ := hc c hcc
    cases c with
    | val _ => exact hx
    | slice b o n =>
      obtain ⟨rfl, h3, h4⟩ := hx
      rw [hs b h1.1] at h4
      simp only [Full] at h2
      omega
  have gen : ∀ (fs : List (Str → Str)) (H' : Arrays), Frame (fun _ _ => False) H H' →
      Frame (fun _ _ => False) H' (loadAll custom grow fds cs H' fs).1 ∧
      (loadAll custom grow fds cs H' fs).2.map (fun r => (r.1.map (·.read (loadAll custom grow fds cs H' fs).1), r.2)) =
        fs.map fun f => load custom f fds (cs.map (·.read H)) := by
    intro fs
    induction fs with
    | nil => intro H' _; exact ⟨Frame.refl _ _, rfl⟩
    | cons f fs ih =>
      intro H' hf
      have hc' : ∀ c ∈ cs, c.OK H' := fun c h => hf.ok (hc c h).1
      have hn := noroom H' (fun a ha => hf.size a ha)
      obtain ⟨g1, g2, g3⟩ := loadCells_spec custom grow f fds cs H' hc'
      have hap : Apart H' cs := by
        refine List.pairwise_iff_forall_sublist.2 ?_
        intro x y hxy a j
        have hx : x ∈ cs := hxy.subset (by simp)
        have hy : y ∈ cs := hxy.subset (by simp)
        exact ⟨fun h => absurd h (hn x hx a j), fun h => absurd h (hn y hy a j)⟩
      have g1' : Frame (fun _ _ => False) H' (loadCells custom grow f H' fds cs).1 := g1.mono fun a j ⟨c, h, hx⟩ => hn c h a j hx
      obtain ⟨i1, i2⟩ := ih _ (hf.trans g1' fun _ _ _ h => h)
      simp only [loadAll]
      refine ⟨g1'.trans i1 fun _ _ _ h => h, ?_⟩
      rw [List.map_cons, List.map_cons, i2]
      congr 1
      have := g3 hap
      have hr : (cs.map (·.read H')) = cs.map (·.read H) := List.map_congr_left fun c h => hf.read (hc c h).1 fun _ _ _ h => h
      rw [hr] at this
      rw [← this]
      congr 1
      exact List.map_congr_left fun d hd => i1.read (g2 d hd).1 fun _ _ _ h => h
  exact (gen fs H (Frame.refl _ _)).2

/-! ### concrete cases -/

/-- A struct with one field, a list of texts from "L". -/
def listField : List Field := [⟨lit "L", .slice .str, true⟩]

/-- No type has methods of its own. -/
def noCustom : Nat → CVal → Str → Except Stop CVal := fun _ _ _ => .error .err

/-- A source of values. -/
def src (v : String) : Str → Str := fun k => if k = lit "L" then lit v else []

/-- The texts of a list. -/
def texts : CVal → List Str
  | .slice (some l) => l.map fun | .str s => s | _ => lit "?"
  | _ => []

/-- Capacities as Go grows small slices: doubled. -/
def double (n : Nat) : Nat := if n = 0 then 1 else 2 * n

/-- C157 (negation): two configurations loaded from values with a list of one text and room for another: the second load replaces the
text the first had appended. -/
theorem C157_shared_violated :
    let H : Arrays := [[.str (lit "a"), .str []]]
    let cs : List Cell := [.slice 0 0 1]
    (∀ c ∈ cs, c.OK H) ∧ Apart H cs ∧
    (loadAll noCustom double listField cs H [src "b", src "c"]).2.map (fun r => r.1.map fun c => texts (c.read (loadAll noCustom double listField cs H [src "b", src "c"]).1)) =
      [[[lit "a", lit "c"]], [[lit "a", lit "c"]]] ∧
    ([src "b", src "c"].map fun f => (load noCustom f listField (cs.map (·.read H))).1.map texts) = [[[lit "a", lit "b"]], [[lit "a", lit "c"]]] := by
  refine ⟨?_, List.pairwise_singleton _ _, by decide, by decide⟩
  intro c hc
  cases List.mem_singleton.1 hc
  exact ⟨by decide, by decide⟩

/-- C157 (negation): such values come from `From` itself: of a configuration with three texts, loaded from nothing, two are made, one
text more each; both end with the same fourth. -/
theorem C157_layered_violated :
    let r := loadCells noCustom double (src "x,y,z") [] listField [.val (.slice none)]
    let q := loadAll noCustom double listField r.2.1 r.1 [src "b", src "c"]
    r.2.1.map (fun c => texts (c.read r.1)) = [[lit "x", lit "y", lit "z"]] ∧
    q.2.map (fun p => p.1.map fun c => texts (c.read q.1)) = [[[lit "x", lit "y", lit "z", lit "c"]], [[lit "x", lit "y", lit "z", lit "c"]]] := by
  decide

/-- Without room each load makes an array of its own. -/
example : (fun q : Arrays × List (List Cell × Option Stop) => q.2.map (fun p => p.1.map fun c => texts (c.read q.1)))
      (loadAll noCustom double listField [.slice 0 0 1] [[.str (lit "a")]] [src "b", src "c,d", src ""]) =
    [[[lit "a", lit "b"]], [[lit "a", lit "c", lit "d"]], [[lit "a"]]] := by decide

/-- A load that fails has overwritten what was loaded before, too. -/
example : (fun q : Arrays × List (List Cell × Option Stop) => q.2.map (fun p => p.1.map fun c => match c.read q.1 with | .slice (some l) => l.map (fun | .int i => i | _ => 0) | _ => []))
      (loadAll noCustom double [⟨lit "L", .slice (.int false), true⟩] [.slice 0 0 1] [[.int 1, .int 0, .int 0]] [src "2", src "3,x"]) =
    [[[1, 3]], [[1]]] := by decide

/-- A slice of all of an array, one that leaves room, and one that would be too long. -/
example : Full [[.int 1, .int 2]] (.slice 0 1 1) ∧ ¬ Full [[.int 1, .int 2]] (.slice 0 0 1) ∧ (Cell.slice 0 0 1).OK [[.int 1, .int 2]] ∧ ¬ (Cell.slice 0 1 2).OK [[.int 1, .int 2]] := by
  simp [Full, Cell.OK, arrOf]

end Verif.Config.Shared

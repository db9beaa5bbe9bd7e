import Verif.Ws.TransportProps
import Verif.Enc.GrammarProps
/-!
# Messages that are cut short (C143)

A connection may end in the middle of a frame. The reader of `x/net/websocket` limits the payload to the length in the header, and says plainly `io.EOF` if the connection ends before: `io.ReadAll` (ws.go L114) takes that for
the end of the payload and returns what has come, without an error. Payloads are texts here; a cut inside of a character is in Http/Cut.lean (`C177_bytes`).
-/
set_option autoImplicit false
namespace Verif.Ws.Transport
open Verif.Strconv Verif.Enc

/-- What has come of a connection when it ends: whole frames, and the header and the beginning of the payload of another one. ws.go L73, L114. -/
structure Broken where
  whole : List WFrame
  op : Op
  /-- what has come of the last payload -/
  came : Str
  /-- what has not -/
  lost : Str

/-- The reading goroutine over such a connection (ws.go L71-121, conn.go L28-51): the beginning of a payload is taken for the payload. -/
def readBroken {X : Ext} (b : Broken) : List (Option (Node X)) × End := readLoop (b.whole ++ [⟨b.op, true, b.came⟩])

/-! ### JSON values can not be cut, but for numbers -/

theorem blank_head (w r : Str) (c : Char) (hw : Blank w) (h : w = c :: r) : isWs c = true := (isWs_iff c).2 (hw c (by rw [h]; simp))

theorem blank_prefix (w p q : Str) (hw : Blank w) (h : w = p ++ q) : Blank p := fun c hc => hw c (by rw [h]; simp [hc])

/-- Two texts with a blank beginning that are the same: the beginnings are the same if what follows does not begin with a blank. -/
theorem blank_split (w w' : Str) (hw : Blank w) (hw' : Blank w') (a b : Str) (ha : ∃ c r, a = c :: r ∧ isWs c = false) (hb : ∃ c r, b = c :: r ∧ isWs c = false) (h : w ++ a = w' ++ b) : w = w' ∧ a = b := by
  induction w generalizing w' with
  | nil =>
    cases w' with
    | nil => exact ⟨rfl, h⟩
    | cons c w' =>
      obtain ⟨c', r, rfl, hc⟩ := ha
      injection h with h _
      subst h
      rw [blank_head _ _ _ hw' rfl] at hc; cases hc
  | cons c w ih =>
    cases w' with
    | nil =>
      obtain ⟨c', r, rfl, hc⟩ := hb
      injection h with h _
      subst h
      rw [blank_head _ _ _ hw rfl] at hc; cases hc
    | cons c' w' =>
      injection h with h1 h2
      subst h1
      obtain ⟨h3, h4⟩ := ih w' (fun x hx => hw x (by simp [hx])) (fun x hx => hw' x (by simp [hx])) h2
      exact ⟨by rw [h3], h4⟩

theorem val_num {X : Ext} {d : Nat} {t : Str} {n : Node X} (h : JVal d t n) (c : Char) (r : Str) (ht : t = c :: r) (hc : isDigit c = true ∨ c = '-') : JNum t := by
  obtain ⟨_, h1, h2, h3, h4, h5, h6, _, _⟩ := ws_of_digit c hc
  cases h with
  | num _ _ h => exact h
  | null => injection ht with ht _; subst ht; exact absurd hc (by decide)
  | tru => injection ht with ht _; subst ht; exact absurd hc (by decide)
  | fls => injection ht with ht _; subst ht; exact absurd hc (by decide)
  | str => injection ht with ht _; subst ht; exact absurd hc (by decide)
  | noElems => injection ht with ht _; subst ht; exact absurd hc (by decide)
  | elems => injection ht with ht _; subst ht; exact absurd hc (by decide)
  | noMembers => injection ht with ht _; subst ht; exact absurd hc (by decide)
  | members => injection ht with ht _; subst ht; exact absurd hc (by decide)

/-- C143: no beginning of a JSON text that is not a number, apart from the empty one, is JSON, whatever white space comes before. -/
theorem C143_prefix {X : Ext} (w t p q : Str) (n : Node X) (hw : Blank w) (ht : JVal maxDepth t n) (hn : ¬ JNum t) (hpq : w ++ t = p ++ q) (hq : q ≠ []) (hp : p ≠ []) : decode (X := X) p = none := by
  refine (C114_refused (X := X) p).1.2 ⟨hp, ?_⟩
  rintro m ⟨w', t', r, rfl, hw', ht', _⟩
  obtain ⟨c, x, hc, hcw, _⟩ := val_head ht
  obtain ⟨c', x', hc', hcw', _⟩ := val_head ht'
  obtain ⟨h1, h2⟩ := blank_split w w' hw hw' t (t' ++ (r ++ q)) ⟨c, x, hc, hcw⟩ ⟨c', x' ++ (r ++ q), by rw [hc']; rfl, hcw'⟩ (by rw [hpq]; simp)
  have hn' : ¬ JNum t' := fun h => by
    obtain ⟨d, y, hd, hdd⟩ := JNum_head t' h
    exact hn (val_num ht d (y ++ (r ++ q)) (by rw [h2, hd]; rfl) hdd)
  have a := val_complete ht (2 * t.length) [] (Nat.le_refl _) (fun h => absurd h hn)
  have b := val_complete ht' (2 * t.length) (r ++ q) (by rw [h2]; simp; omega) (fun h => absurd h hn')
  rw [List.append_nil, h2] at a
  rw [h2] at b
  rw [b] at a
  simp only [Option.some.injEq, Prod.mk.injEq, List.append_eq_nil_iff] at a
  exact hq a.2.2

theorem readLoop_append {X : Ext} (fs gs : List WFrame) (h : ∀ f ∈ fs, (f.op = .text ∨ f.op = .bin) ∧ ∃ n, decode (X := X) f.payload = some n) :
    readLoop (X := X) (fs ++ gs) = ((readLoop (X := X) fs).1 ++ (readLoop (X := X) gs).1, (readLoop (X := X) gs).2) := by
  induction fs with
  | nil => rfl
  | cons f fs ih =>
    obtain ⟨ho, n, hn⟩ := h f (by simp)
    have hr : ∀ l, read (X := X) (f :: l) = .node n := fun l => by
      rcases ho with ho | ho <;> simp [read, ho, hn]
    have ih := ih fun g hg => h g (by simp [hg])
    simp only [List.cons_append, readLoop, hr, ih]

/-- The messages before are in order. -/
def Sound (X : Ext) (b : Broken) : Prop := (b.op = .text ∨ b.op = .bin) ∧ ∀ f ∈ b.whole, (f.op = .text ∨ f.op = .bin) ∧ ∃ n, decode (X := X) f.payload = some n

theorem readBroken_eq {X : Ext} (b : Broken) (h : Sound X b) : readBroken (X := X) b = ((readLoop (X := X) b.whole).1 ++ (match decode (X := X) b.came with | some n => [n] | none => []), .returned) := by
  have hr : readLoop (X := X) [⟨b.op, true, b.came⟩] = ((match decode (X := X) b.came with | some n => [n] | none => []), .returned) := by
    have : read (X := X) [⟨b.op, true, b.came⟩] = match decode (X := X) b.came with | some n => .node n | none => .err := by
      rcases h.1 with ho | ho <;> simp only [read, ho] <;> cases decode (X := X) b.came <;> rfl
    simp only [readLoop, this]
    cases decode (X := X) b.came <;> rfl
  rw [readBroken, readLoop_append _ _ h.2, hr]

/-- C143: a message that is cut, and is not a number, is not delivered, if anything of it has come; those before it are. -/
theorem C143_cut_partial {X : Ext} (b : Broken) (h : Sound X b) (w t : Str) (n : Node X) (hw : Blank w) (ht : JVal maxDepth t n) (hn : ¬ JNum t) (hm : w ++ t = b.came ++ b.lost)
    (hl : b.lost ≠ []) (hc : b.came ≠ []) : readBroken (X := X) b = ((readLoop (X := X) b.whole).1, .returned) := by
  rw [readBroken_eq b h, C143_prefix w t b.came b.lost n hw ht hn hm hl hc, List.append_nil]

/-- C143, violated: if the connection ends right after the header of a frame, a message nobody sent, no node at all, is delivered, whatever was sent. -/
theorem C143_empty_violated {X : Ext} (b : Broken) (h : Sound X b) (hc : b.came = []) : readBroken (X := X) b = ((readLoop (X := X) b.whole).1 ++ [none], .returned) := by
  rw [readBroken_eq b h, hc]; rfl

theorem jnum_fmtNat (k : Nat) : JNum (fmtNat k) := by
  refine ⟨[], fmtNat k, [], [], by simp, Or.inl rfl, ?_, Or.inl rfl, Or.inl rfl⟩
  obtain ⟨c, cs, he, hz⟩ := fmtNat_head k
  by_cases h0 : c = '0'
  · obtain ⟨_, rfl⟩ := hz h0
    exact Or.inl (by rw [he, h0])
  · refine Or.inr ⟨⟨by rw [he]; simp, fun c hc => ?_⟩, by rw [he]; simpa using h0⟩
    have := fmtNat_digits k c hc
    simpa [isDigit] using this

/-- C143, violated: a number that is cut is delivered as another number: for every number of more than one digit. -/
theorem C143_number_violated {X : Ext} (b : Broken) (h : Sound X b) (k : Nat) (hk : 10 ≤ k) (hc : b.came = fmtNat (k / 10)) (hl : b.lost = [digit (k % 10)]) :
    b.came ++ b.lost = fmtNat k ∧ readBroken (X := X) b = ((readLoop (X := X) b.whole).1 ++ [some (.digits (fmtNat (k / 10)))], .returned)
    ∧ readLoop (X := X) (b.whole ++ [⟨b.op, true, b.came ++ b.lost⟩]) = ((readLoop (X := X) b.whole).1 ++ [some (.digits (fmtNat k))], .returned) := by
  have hs : b.came ++ b.lost = fmtNat k := by rw [hc, hl]; conv => rhs; rw [fmtNat, dif_neg (by omega)]
  have hd : ∀ k, decode (X := X) (fmtNat k) = some (some (.digits (fmtNat k))) := fun k => by
    have := (C114_document (X := X) [] (fmtNat k) [] (.digits (fmtNat k)) blank_nil blank_nil (.num _ _ (jnum_fmtNat k))).1
    simpa using this
  refine ⟨hs, ?_, ?_⟩
  · rw [readBroken_eq b h, hc, hd]
  · have := readBroken_eq (X := X) { b with came := b.came ++ b.lost, lost := [] } h
    simp only [readBroken] at this
    rw [this, hs, hd]

/-- C126: so a message in fragments that is not a number is refused, not misread, if its first fragment is not empty. -/
theorem C126_fragment_refused {X : Ext} (bin : Bool) (first second : Str) (more : List Str) (l : List Item) (w t : Str) (n : Node X) (hw : Blank w) (ht : JVal maxDepth t n) (hn : ¬ JNum t)
    (hm : w ++ t = first ++ (second :: more).flatten) (hl : (second :: more).flatten ≠ []) (hc : first ≠ []) : readLoop (X := X) (wire (.msg bin first (second :: more) :: l)) = ([], .returned) := by
  rw [C126_fragment_violated, C143_prefix w t first _ n hw ht hn hm hl hc]

/-- A list cut within its last number; a number cut; a frame of which only the header has come. -/
example : readBroken (X := XT) ⟨[⟨.text, true, lit "1"⟩], .text, lit "[1,2", lit "3]"⟩ = ([some (.digits (lit "1"))], .returned)
    ∧ readBroken (X := XT) ⟨[], .text, lit "12", lit "345"⟩ = ([some (.digits (lit "12"))], .returned)
    ∧ readBroken (X := XT) ⟨[], .bin, [], lit "{}"⟩ = ([none], .returned) := by decide +kernel

end Verif.Ws.Transport

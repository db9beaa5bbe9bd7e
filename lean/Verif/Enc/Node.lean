import Verif.Strconv
/-!
# `enc.Node` (enc/enc.go L12-17 and the node types)

* Strings are lists of characters (valid Unicode). Go strings may hold invalid UTF-8, which the JSON encoder replaces by U+FFFD: see Enc/BytesJson.lean.
* Floats and times are opaque types; what the code does with them is a parameter (`Ext`), and theorems that need more than the type
  of an operation say so as hypotheses.
* A Go map is an association list; `Node.WF` says that its keys are strictly increasing, so that two well-formed maps are equal iff
  they have the same entries. Iteration order, where it matters, is a parameter of the functions that iterate.
-/
set_option autoImplicit false
namespace Verif.Enc
open Verif.Strconv

/-- The opaque parts: `float64` and `time.Time`, with the standard library functions used on them. enc/numeric.go L46-63, enc/time.go L12-124. -/
structure Ext where
  /-- `float64` -/
  F : Type
  /-- `time.Time` -/
  T : Type
  /-- `json.Marshal(float64)`: the text, or nothing for NaN and infinities (an error). -/
  fJson : F → Option Str
  /-- `strconv.ParseFloat(s, 64)` -/
  fParse : Str → Option F
  /-- `strconv.FormatFloat(f, 'g', -1, 64)`, also used by `%v`. -/
  fStr : F → Str
  /-- `float64(i)` for an `int64`. -/
  fOfInt : Int → F
  /-- `int64(f)` -/
  fToInt : F → Int
  /-- `uint64(f)` -/
  fToUint : F → Int
  /-- `float64(float32(f))`: what storing in a `float32` keeps. -/
  f32 : F → F
  /-- `f == 0.0` -/
  fIsZero : F → Bool
  /-- `0.0` -/
  fZero : F
  /-- `t.Format(time.RFC3339Nano)` -/
  tFmt : T → Str
  /-- `time.Parse(time.RFC3339Nano, s)`, then `time.Parse(time.RFC3339, s)` -/
  tParse : Str → Option T
  /-- the zero time -/
  tZero : T
  /-- `fmt.Sprint(time.Duration(d))` -/
  dStr : Int → Str
  /-- `time.ParseDuration` -/
  dParse : Str → Option Int
  /-- `fmt.Sprint(t)` for a time, used in `GoString`. -/
  tStr : T → Str
  /-- the strict RFC 3339 parser of `time.Time.UnmarshalJSON` -/
  tStrict : Str → Option T

/-- `enc.Node`: the dynamic types that implement it. `int` holds an `enc.Integer` (a Go `int`, 64 bits), `dur` an `enc.Duration`. enc/enc.go L12-17 and the types of enc/nil.go, enc/scalar.go, enc/numeric.go, enc/list.go, enc/map.go, enc/pairs.go, enc/time.go. -/
inductive Node (X : Ext) where
  | nil
  | bool (b : Bool)
  | str (s : Str)
  | int (i : Int)
  | float (f : X.F)
  | digits (s : Str)
  | list (l : List (Node X))
  | map (m : List (Str × Node X))
  | pairs (l : List ((Str × Str) × Node X))
  | time (t : X.T)
  | dur (d : Int)

/-- Go's `<` on strings: bytewise, which for valid UTF-8 is lexicographic order of code points. For the order `encoding/json` writes keys in: enc/map.go L30. -/
def strLt : Str → Str → Bool
  | [], [] => false
  | [], _ :: _ => true
  | _ :: _, [] => false
  | a :: as, b :: bs => if a.toNat < b.toNat then true else if a = b then strLt as bs else false

/-- `m[k] = v` on a key-sorted association list. enc/map.go L14, enc/pairs.go L18-24. -/
def insertKey {α : Type} (k : Str) (v : α) : List (Str × α) → List (Str × α)
  | [] => [(k, v)]
  | (k', v') :: m => if k = k' then (k, v) :: m else if strLt k k' then (k, v) :: (k', v') :: m else (k', v') :: insertKey k v m

/-- `m[k]` with the comma-ok form. enc/map.go L14. -/
def lookupKey {α : Type} (k : Str) : List (Str × α) → Option α
  | [] => none
  | (k', v) :: m => if k = k' then some v else lookupKey k m

/-- Building a map from entries in order: later entries replace earlier ones. enc/map.go L14, enc/pairs.go L18-24. -/
def ofEntries {α : Type} (l : List (Str × α)) : List (Str × α) :=
  l.foldl (fun m e => insertKey e.1 e.2 m) []

/-- Strictly increasing keys. How maps are represented: enc/map.go L14. -/
def SortedKeys {α : Type} (m : List (Str × α)) : Prop := m.Pairwise (fun a b => strLt a.1 b.1 = true)

/-! ### lemmas on keys -/

theorem strLt_irrefl (a : Str) : strLt a a = false := by
  induction a with
  | nil => rfl
  | cons c cs ih => simp [strLt, ih]

theorem char_eq_of_toNat {a b : Char} (h : a.toNat = b.toNat) : a = b := by
  apply Char.ext
  exact UInt32.toNat_inj.1 h

theorem strLt_trans (a b c : Str) (h1 : strLt a b = true) (h2 : strLt b c = true) : strLt a c = true := by
  induction a generalizing b c with
  | nil =>
    cases b with
    | nil => simp [strLt] at h1
    | cons y ys => cases c with
      | nil => simp [strLt] at h2
      | cons z zs => rfl
  | cons x xs ih =>
    cases b with
    | nil => simp [strLt] at h1
    | cons y ys =>
      cases c with
      | nil => simp [strLt] at h2
      | cons z zs =>
        simp only [strLt] at h1 h2 ⊢
        by_cases hxy : x.toNat < y.toNat
        · by_cases hyz : y.toNat < z.toNat
          · rw [if_pos (by omega)]
          · by_cases e : y = z
            · subst e; rw [if_pos hxy]
            · simp [hyz, e] at h2
        · by_cases e : x = y
          · subst e
            by_cases hyz : x.toNat < z.toNat
            · rw [if_pos hyz]
            · by_cases e : x = z
              · subst e; simp at h1 h2 ⊢; exact ih ys zs h1 h2
              · simp [hyz, e] at h2
          · simp [hxy, e] at h1

theorem strLt_total (a b : Str) : strLt a b = true ∨ a = b ∨ strLt b a = true := by
  induction a generalizing b with
  | nil => cases b <;> simp [strLt]
  | cons x xs ih =>
    cases b with
    | nil => simp [strLt]
    | cons y ys =>
      simp only [strLt]
      by_cases h : x.toNat < y.toNat
      · simp [h]
      · by_cases e : x = y
        · subst e; simp; exact ih ys
        · right; right
          have : x.toNat ≠ y.toNat := fun h' => e (char_eq_of_toNat h')
          rw [if_pos (by omega)]

theorem strLt_asymm (a b : Str) (h : strLt a b = true) : strLt b a = false := by
  cases hb : strLt b a with
  | false => rfl
  | true => have := strLt_trans a b a h hb; rw [strLt_irrefl] at this; cases this

theorem lookup_insertKey {α : Type} (k k' : Str) (v : α) (m : List (Str × α)) :
    lookupKey k' (insertKey k v m) = if k' = k then some v else lookupKey k' m := by
  induction m with
  | nil => simp [insertKey, lookupKey]
  | cons e m ih =>
    obtain ⟨k0, v0⟩ := e
    simp only [insertKey]
    split
    · rename_i h; subst h; simp only [lookupKey]; by_cases h : k' = k <;> simp [h]
    · split
      · simp only [lookupKey]
      · simp only [lookupKey, ih]
        by_cases h : k' = k0
        · subst h
          rename_i h1 _
          simp [show k' ≠ k from fun e => h1 e.symm]
        · simp [h]

theorem mem_insertKey {α : Type} {k : Str} {v : α} {m : List (Str × α)} {e : Str × α} (h : e ∈ insertKey k v m) : e = (k, v) ∨ e ∈ m := by
  induction m with
  | nil => simpa [insertKey] using h
  | cons e0 m ih =>
    obtain ⟨k0, v0⟩ := e0
    simp only [insertKey] at h
    split at h
    · rcases List.mem_cons.1 h with h | h <;> simp [h]
    · split at h
      · rcases List.mem_cons.1 h with h | h
        · exact .inl h
        · exact .inr h
      · rcases List.mem_cons.1 h with h | h
        · simp [h]
        · rcases ih h with h | h <;> simp [h]

theorem sorted_insertKey {α : Type} (k : Str) (v : α) (m : List (Str × α)) (h : SortedKeys m) : SortedKeys (insertKey k v m) := by
  induction m with
  | nil => simp [insertKey, SortedKeys]
  | cons e m ih =>
    obtain ⟨k0, v0⟩ := e
    unfold SortedKeys at h ⊢
    obtain ⟨h1, h2⟩ := List.pairwise_cons.1 h
    simp only [insertKey]
    split
    · rename_i hk; subst hk; exact List.pairwise_cons.2 ⟨h1, h2⟩
    · rename_i hk
      split
      · rename_i hlt
        refine List.pairwise_cons.2 ⟨?_, h⟩
        intro e he
        rcases List.mem_cons.1 he with rfl | he
        · exact hlt
        · exact strLt_trans _ _ _ hlt (h1 e he)
      · rename_i hlt
        refine List.pairwise_cons.2 ⟨?_, ih h2⟩
        intro e he
        rcases mem_insertKey he with rfl | he
        · rcases strLt_total k k0 with h | h | h
          · exact absurd h hlt
          · exact absurd h hk
          · exact h
        · exact h1 e he

/-- Inserting a key above all others puts it last. -/
theorem insertKey_last {α : Type} (k : Str) (v : α) (m : List (Str × α)) (h : ∀ e ∈ m, strLt e.1 k = true) : insertKey k v m = m ++ [(k, v)] := by
  induction m with
  | nil => rfl
  | cons e m ih =>
    obtain ⟨k0, v0⟩ := e
    have h0 := h (k0, v0) (by simp)
    simp only [insertKey]
    rw [if_neg (by rintro rfl; rw [strLt_irrefl] at h0; cases h0), if_neg (by rw [strLt_asymm _ _ h0]; simp)]
    rw [ih (fun e he => h e (by simp [he]))]; rfl

theorem foldl_insert_sorted {α : Type} (l acc : List (Str × α)) (h : SortedKeys (acc ++ l)) :
    l.foldl (fun m e => insertKey e.1 e.2 m) acc = acc ++ l := by
  induction l generalizing acc with
  | nil => simp
  | cons e l ih =>
    obtain ⟨k, v⟩ := e
    have hlast : insertKey k v acc = acc ++ [(k, v)] := by
      apply insertKey_last
      intro e he
      exact (List.pairwise_append.1 h).2.2 e he (k, v) (by simp)
    simp only [List.foldl_cons, hlast]
    rw [ih]
    · simp
    · simpa using h

/-- A sorted map is rebuilt unchanged from its entries. -/
theorem ofEntries_sorted {α : Type} (l : List (Str × α)) (h : SortedKeys l) : ofEntries l = l := by
  have := foldl_insert_sorted l [] (by simpa using h)
  simpa [ofEntries] using this

theorem foldl_sorted {α : Type} (l acc : List (Str × α)) (h : SortedKeys acc) : SortedKeys (l.foldl (fun m e => insertKey e.1 e.2 m) acc) := by
  induction l generalizing acc with
  | nil => exact h
  | cons e l ih => exact ih _ (sorted_insertKey _ _ _ h)

theorem sorted_ofEntries {α : Type} (l : List (Str × α)) : SortedKeys (ofEntries l) := foldl_sorted l [] (by simp [SortedKeys])

theorem lookup_foldl {α : Type} (k : Str) (l acc : List (Str × α)) :
    lookupKey k (l.foldl (fun m e => insertKey e.1 e.2 m) acc) = (lookupKey k l.reverse).or (lookupKey k acc) := by
  have app : ∀ (a b : List (Str × α)), lookupKey k (a ++ b) = (lookupKey k a).or (lookupKey k b) := by
    intro a b
    induction a with
    | nil => simp [lookupKey]
    | cons e a ih => simp only [List.cons_append, lookupKey, ih]; split <;> simp
  induction l generalizing acc with
  | nil => simp [lookupKey]
  | cons e l ih =>
    simp only [List.foldl_cons, ih, List.reverse_cons, app, lookup_insertKey, lookupKey]
    cases lookupKey k l.reverse <;> simp
    by_cases h : k = e.1 <;> simp [h]

/-- The last entry of a key wins. -/
theorem lookup_ofEntries {α : Type} (k : Str) (l : List (Str × α)) : lookupKey k (ofEntries l) = lookupKey k l.reverse := by
  simp [ofEntries, lookup_foldl, lookupKey]

theorem lookup_of_mem {α : Type} {m : List (Str × α)} (h : SortedKeys m) {k : Str} {v : α} (hm : (k, v) ∈ m) : lookupKey k m = some v := by
  induction m with
  | nil => simp at hm
  | cons e m ih =>
    obtain ⟨k0, v0⟩ := e
    obtain ⟨h1, h2⟩ := List.pairwise_cons.1 h
    simp only [lookupKey]
    rcases List.mem_cons.1 hm with he | hm'
    · injection he with e1 e2; subst e1 e2; simp
    · rw [if_neg]
      · exact ih h2 hm'
      · rintro rfl
        have := h1 _ hm'
        rw [strLt_irrefl] at this; cases this

theorem mem_of_lookup {α : Type} {m : List (Str × α)} {k : Str} {v : α} (h : lookupKey k m = some v) : (k, v) ∈ m := by
  induction m with
  | nil => simp [lookupKey] at h
  | cons e m ih =>
    obtain ⟨k0, v0⟩ := e
    simp only [lookupKey] at h
    split at h
    · rename_i hk; subst hk; injection h with h; subst h; simp
    · exact List.mem_cons_of_mem _ (ih h)

/-- Sorted maps are determined by their lookups. -/
theorem sorted_ext {α : Type} (a b : List (Str × α)) (ha : SortedKeys a) (hb : SortedKeys b) (h : ∀ k, lookupKey k a = lookupKey k b) : a = b := by
  have memiff : ∀ e, e ∈ a ↔ e ∈ b := by
    rintro ⟨k, v⟩
    constructor
    · intro hm; exact mem_of_lookup (by rw [← h]; exact lookup_of_mem ha hm)
    · intro hm; exact mem_of_lookup (by rw [h]; exact lookup_of_mem hb hm)
  clear h
  induction a generalizing b with
  | nil => cases b with
    | nil => rfl
    | cons e b => have := (memiff e).2 (by simp); simp at this
  | cons x a ih =>
    cases b with
    | nil => have := (memiff x).1 (by simp); simp at this
    | cons y b =>
      obtain ⟨ha1, ha2⟩ := List.pairwise_cons.1 ha
      obtain ⟨hb1, hb2⟩ := List.pairwise_cons.1 hb
      have hxy : x = y := by
        rcases List.mem_cons.1 ((memiff x).1 (by simp)) with h | h
        · exact h
        · rcases List.mem_cons.1 ((memiff y).2 (by simp)) with h' | h'
          · exact h'.symm
          · have e1 := ha1 y h'; have e2 := hb1 x h
            rw [strLt_asymm _ _ e1] at e2; cases e2
      subst hxy
      congr 1
      apply ih b ha2 hb2
      intro e
      constructor
      · intro he
        rcases List.mem_cons.1 ((memiff e).1 (by simp [he])) with h | h
        · subst h; have := ha1 _ he; rw [strLt_irrefl] at this; cases this
        · exact h
      · intro he
        rcases List.mem_cons.1 ((memiff e).2 (by simp [he])) with h | h
        · subst h; have := hb1 _ he; rw [strLt_irrefl] at this; cases this
        · exact h

end Verif.Enc

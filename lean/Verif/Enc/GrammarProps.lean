import Verif.Enc.GrammarNum
import Verif.Enc.JsonProps
/-!
# `JSON.Decode` accepts exactly JSON (enc/json.go L74-86)
-/
set_option autoImplicit false
namespace Verif.Enc
open Verif.Strconv

/-! ### everything accepted is JSON -/

theorem skipWs_spec (s : Str) : ∃ w, s = w ++ skipWs s ∧ Blank w := by
  induction s with
  | nil => exact ⟨[], rfl, blank_nil⟩
  | cons c s ih =>
    rw [skipWs]
    split
    · rename_i hc
      obtain ⟨w, h1, h2⟩ := ih
      refine ⟨c :: w, by rw [List.cons_append, ← h1], ?_⟩
      intro x hx
      rcases List.mem_cons.1 hx with rfl | hx
      · exact (isWs_iff _).1 hc
      · exact h2 x hx
    · exact ⟨[], rfl, blank_nil⟩

theorem parse_sound {X : Ext} : ∀ (fuel : Nat),
    (∀ d s (n : Node X) r, parseValue fuel d s = some (n, r) → ∃ w t, s = w ++ (t ++ r) ∧ Blank w ∧ JVal d t n) ∧
    (∀ d s (l : List (Node X)) r, parseElems fuel d s = some (l, r) → ∃ t, s = t ++ ']' :: r ∧ JElems d t l) ∧
    (∀ d s (m : List (Str × Node X)) r, parseMembers fuel d s = some (m, r) → ∃ t, s = t ++ '}' :: r ∧ JMembers d t m) := by
  intro fuel
  induction fuel with
  | zero =>
    refine ⟨?_, ?_, ?_⟩
    · intro d s n r h; rw [parseValue] at h; cases h
    · intro d s n r h; rw [parseElems] at h; cases h
    · intro d s n r h; rw [parseMembers] at h; cases h
  | succ fuel ih =>
    obtain ⟨ihv, ihe, ihm⟩ := ih
    refine ⟨?_, ?_, ?_⟩
    · intro d s n r h
      obtain ⟨w, hs, hw⟩ := skipWs_spec s
      rw [parseValue] at h
      rw [hs]
      generalize skipWs s = s' at h ⊢
      clear hs
      suffices hh : ∃ t, s' = t ++ r ∧ JVal d t n by
        obtain ⟨t, rfl, ht⟩ := hh
        exact ⟨w, t, rfl, hw, ht⟩
      split at h
      · cases h
      · simp only [Option.some.injEq, Prod.mk.injEq] at h
        obtain ⟨rfl, rfl⟩ := h
        exact ⟨lit "null", rfl, .null d⟩
      · simp only [Option.some.injEq, Prod.mk.injEq] at h
        obtain ⟨rfl, rfl⟩ := h
        exact ⟨lit "true", rfl, .tru d⟩
      · simp only [Option.some.injEq, Prod.mk.injEq] at h
        obtain ⟨rfl, rfl⟩ := h
        exact ⟨lit "false", rfl, .fls d⟩
      · rename_i x
        split at h
        · rename_i v r1 hp
          simp only [Option.some.injEq, Prod.mk.injEq] at h
          obtain ⟨rfl, rfl⟩ := h
          obtain ⟨t, rfl, ht⟩ := parseStr_sound _ _ _ _ (Nat.le_refl _) hp
          exact ⟨'"' :: (t ++ ['"']), by simp, .str d t v ht⟩
        · cases h
      · rename_i x
        cases d with
        | zero => cases h
        | succ d =>
          simp only at h
          split at h
          · rename_i r1 hk
            simp only [Option.some.injEq, Prod.mk.injEq] at h
            obtain ⟨rfl, rfl⟩ := h
            obtain ⟨w1, hx, hw1⟩ := skipWs_spec x
            rw [hk] at hx
            exact ⟨'[' :: (w1 ++ [']']), by rw [hx]; simp, .noElems d w1 hw1⟩
          · split at h
            · rename_i l r1 hp
              simp only [Option.some.injEq, Prod.mk.injEq] at h
              obtain ⟨rfl, rfl⟩ := h
              obtain ⟨t, rfl, ht⟩ := ihe _ _ _ _ hp
              exact ⟨'[' :: (t ++ [']']), by simp, .elems d t l ht⟩
            · cases h
      · rename_i x
        cases d with
        | zero => cases h
        | succ d =>
          simp only at h
          split at h
          · rename_i r1 hk
            simp only [Option.some.injEq, Prod.mk.injEq] at h
            obtain ⟨rfl, rfl⟩ := h
            obtain ⟨w1, hx, hw1⟩ := skipWs_spec x
            rw [hk] at hx
            exact ⟨'{' :: (w1 ++ ['}']), by rw [hx]; simp, .noMembers d w1 hw1⟩
          · split at h
            · rename_i m r1 hp
              simp only [Option.some.injEq, Prod.mk.injEq] at h
              obtain ⟨rfl, rfl⟩ := h
              obtain ⟨t, rfl, ht⟩ := ihm _ _ _ _ hp
              exact ⟨'{' :: (t ++ ['}']), by simp, .members d t m ht⟩
            · cases h
      · split at h
        · rename_i t r1 hp
          simp only [Option.some.injEq, Prod.mk.injEq] at h
          obtain ⟨rfl, rfl⟩ := h
          obtain ⟨he, hn⟩ := parseNumber_sound _ _ _ hp
          exact ⟨t, he, .num d t hn⟩
        · cases h
    · intro d s l r h
      rw [parseElems] at h
      split at h
      · cases h
      rename_i n r1 hp
      obtain ⟨w, t, rfl, hw, ht⟩ := ihv _ _ _ _ hp
      obtain ⟨w1, hr1, hw1⟩ := skipWs_spec r1
      split at h
      · rename_i r2 hk
        rw [hk] at hr1
        split at h
        · rename_i l' r3 hp2
          simp only [Option.some.injEq, Prod.mk.injEq] at h
          obtain ⟨rfl, rfl⟩ := h
          obtain ⟨ts, rfl, hts⟩ := ihe _ _ _ _ hp2
          exact ⟨w ++ (t ++ (w1 ++ ',' :: ts)), by rw [hr1]; simp, .more d w t w1 ts n l' hw ht hw1 hts⟩
        · cases h
      · rename_i r2 hk
        rw [hk] at hr1
        simp only [Option.some.injEq, Prod.mk.injEq] at h
        obtain ⟨rfl, rfl⟩ := h
        exact ⟨w ++ (t ++ w1), by rw [hr1]; simp, .one d w t w1 n hw ht hw1⟩
      · cases h
    · intro d s m r h
      rw [parseMembers] at h
      obtain ⟨w, hs, hw⟩ := skipWs_spec s
      split at h
      · rename_i x hk
        rw [hk] at hs
        split at h
        · cases h
        rename_i k r1 hp
        obtain ⟨kt, rfl, hkt⟩ := parseStr_sound _ _ _ _ (Nat.le_refl _) hp
        obtain ⟨w1, hr1, hw1⟩ := skipWs_spec r1
        split at h
        · rename_i r2 hk2
          rw [hk2] at hr1
          split at h
          · cases h
          rename_i n r3 hp3
          obtain ⟨w2, t, rfl, hw2, ht⟩ := ihv _ _ _ _ hp3
          obtain ⟨w3, hr3, hw3⟩ := skipWs_spec r3
          split at h
          · rename_i r4 hk4
            rw [hk4] at hr3
            split at h
            · rename_i m' r5 hp5
              simp only [Option.some.injEq, Prod.mk.injEq] at h
              obtain ⟨rfl, rfl⟩ := h
              obtain ⟨ts, rfl, hts⟩ := ihm _ _ _ _ hp5
              exact ⟨_, by rw [hs, hr1, hr3]; simp, .more d w kt k w1 w2 t w3 ts n m' hw hkt hw1 hw2 ht hw3 hts⟩
            · cases h
          · rename_i r4 hk4
            rw [hk4] at hr3
            simp only [Option.some.injEq, Prod.mk.injEq] at h
            obtain ⟨rfl, rfl⟩ := h
            exact ⟨_, by rw [hs, hr1, hr3]; simp, .one d w kt k w1 w2 t w3 n hw hkt hw1 hw2 ht hw3⟩
          · cases h
        · cases h
      · cases h

/-! ### all of JSON is accepted -/

theorem val_head {X : Ext} {d : Nat} {t : Str} {n : Node X} (h : JVal d t n) : ∃ c r, t = c :: r ∧ isWs c = false ∧ c ≠ ']' ∧ c ≠ '}' := by
  cases h with
  | num d t h =>
    obtain ⟨c, r, he, hc⟩ := isNumber_head t (isNumber_of_JNum t h)
    obtain ⟨h0, _, _, _, _, _, _, h1, h2⟩ := ws_of_digit c hc
    exact ⟨c, r, he, h0, h1, h2⟩
  | _ => exact ⟨_, _, rfl, by decide, by decide, by decide⟩

theorem elems_head {X : Ext} {d : Nat} {t : Str} {l : List (Node X)} (h : JElems d t l) (rest : Str) :
    ∃ c r, skipWs (t ++ rest) = c :: r ∧ c ≠ ']' := by
  cases h with
  | one d' w t w' n hw ht hw' =>
    obtain ⟨c, r, rfl, h1, h2, _⟩ := val_head ht
    exact ⟨c, _, by rw [List.append_assoc, skipWs_blank w _ hw, List.cons_append, List.cons_append, skipWs_cons _ _ h1], h2⟩
  | more d' w t w' ts n l hw ht hw' hts =>
    obtain ⟨c, r, rfl, h1, h2, _⟩ := val_head ht
    exact ⟨c, _, by rw [List.append_assoc, skipWs_blank w _ hw, List.cons_append, List.cons_append, skipWs_cons _ _ h1], h2⟩

theorem members_head {X : Ext} {d : Nat} {t : Str} {l : List (Str × Node X)} (h : JMembers d t l) (rest : Str) :
    ∃ r, skipWs (t ++ rest) = '"' :: r := by
  cases h with
  | one d' w k s w1 w2 t w3 n hw =>
    exact ⟨_, by rw [List.append_assoc, skipWs_blank w _ hw, List.cons_append, skipWs_cons _ _ (by decide)]⟩
  | more d' w k s w1 w2 t w3 ts n m hw =>
    exact ⟨_, by rw [List.append_assoc, skipWs_blank w _ hw, List.cons_append, skipWs_cons _ _ (by decide)]⟩

mutual
theorem val_complete {X : Ext} : ∀ {d : Nat} {t : Str} {n : Node X}, JVal d t n → ∀ (fuel : Nat) (rest : Str), 2 * t.length ≤ fuel → (JNum t → Stops rest) →
    parseValue fuel d (t ++ rest) = some (n, rest)
  | _, _, _, .null d, fuel, rest, hf, hs => by
    obtain ⟨fuel, rfl⟩ : ∃ k, fuel = k + 1 := ⟨fuel - 1, by simp [lit] at hf; omega⟩
    rw [parseValue]; rfl
  | _, _, _, .tru d, fuel, rest, hf, hs => by
    obtain ⟨fuel, rfl⟩ : ∃ k, fuel = k + 1 := ⟨fuel - 1, by simp [lit] at hf; omega⟩
    rw [parseValue]; rfl
  | _, _, _, .fls d, fuel, rest, hf, hs => by
    obtain ⟨fuel, rfl⟩ : ∃ k, fuel = k + 1 := ⟨fuel - 1, by simp [lit] at hf; omega⟩
    rw [parseValue]; rfl
  | _, _, _, .str d t s ht, fuel, rest, hf, hs => by
    obtain ⟨fuel, rfl⟩ : ∃ k, fuel = k + 1 := ⟨fuel - 1, by simp at hf; omega⟩
    have := parseStr_complete t s ht rest
    rw [parseValue, List.cons_append, skipWs_cons _ _ (by decide)]
    simp only [List.append_assoc, List.cons_append, List.nil_append, this]
  | _, _, _, .num d t ht, fuel, rest, hf, hs => by
    obtain ⟨c, r, he, _⟩ := isNumber_head t (isNumber_of_JNum t ht)
    obtain ⟨fuel, rfl⟩ : ∃ k, fuel = k + 1 := ⟨fuel - 1, by rw [he] at hf; simp at hf; omega⟩
    exact parseValue_number fuel d t rest (hs ht) (isNumber_of_JNum t ht)
  | _, _, _, .noElems d w hw, fuel, rest, hf, hs => by
    obtain ⟨fuel, rfl⟩ : ∃ k, fuel = k + 1 := ⟨fuel - 1, by simp at hf; omega⟩
    rw [parseValue, List.cons_append, skipWs_cons _ _ (by decide)]
    simp only [List.append_assoc, List.cons_append, List.nil_append]
    rw [skipWs_blank w _ hw, skipWs_cons _ _ (by decide)]
    rfl
  | _, _, _, .elems d t l ht, fuel, rest, hf, hs => by
    obtain ⟨fuel, rfl⟩ : ∃ k, fuel = k + 1 := ⟨fuel - 1, by simp at hf; omega⟩
    have hrec := elems_complete ht fuel rest (by simp at hf; omega)
    obtain ⟨c, r, hh, hc⟩ := elems_head ht (']' :: rest)
    rw [parseValue, List.cons_append, skipWs_cons _ _ (by decide)]
    simp only [List.append_assoc, List.cons_append, List.nil_append]
    rw [hh]
    split
    · rename_i he; injection he with he; exact absurd he hc
    · rw [hrec]
  | _, _, _, .noMembers d w hw, fuel, rest, hf, hs => by
    obtain ⟨fuel, rfl⟩ : ∃ k, fuel = k + 1 := ⟨fuel - 1, by simp at hf; omega⟩
    rw [parseValue, List.cons_append, skipWs_cons _ _ (by decide)]
    simp only [List.append_assoc, List.cons_append, List.nil_append]
    rw [skipWs_blank w _ hw, skipWs_cons _ _ (by decide)]
    rfl
  | _, _, _, .members d t m ht, fuel, rest, hf, hs => by
    obtain ⟨fuel, rfl⟩ : ∃ k, fuel = k + 1 := ⟨fuel - 1, by simp at hf; omega⟩
    have hrec := members_complete ht fuel rest (by simp at hf; omega)
    obtain ⟨r, hh⟩ := members_head ht ('}' :: rest)
    rw [parseValue, List.cons_append, skipWs_cons _ _ (by decide)]
    simp only [List.append_assoc, List.cons_append, List.nil_append]
    rw [hh]
    split
    · rename_i he; injection he with he; exact absurd he (by decide)
    · rw [hrec]
theorem elems_complete {X : Ext} : ∀ {d : Nat} {t : Str} {l : List (Node X)}, JElems d t l → ∀ (fuel : Nat) (rest : Str), 2 * t.length + 1 ≤ fuel →
    parseElems fuel d (t ++ ']' :: rest) = some (l, rest)
  | _, _, _, .one d w t w' n hw ht hw', fuel, rest, hf => by
    obtain ⟨fuel, rfl⟩ : ∃ k, fuel = k + 1 := ⟨fuel - 1, by omega⟩
    have hv := val_complete ht fuel (w' ++ ']' :: rest) (by simp at hf; omega) (fun _ => stops_blank _ _ hw' (stops_sep _ _ (by simp)))
    rw [parseElems]
    simp only [List.append_assoc]
    rw [parseValue_blank w hw, hv]
    simp only
    rw [skipWs_blank w' _ hw', skipWs_cons _ _ (by decide)]
    rfl
  | _, _, _, .more d w t w' ts n l hw ht hw' hts, fuel, rest, hf => by
    obtain ⟨fuel, rfl⟩ : ∃ k, fuel = k + 1 := ⟨fuel - 1, by omega⟩
    have hv := val_complete ht fuel (w' ++ ',' :: (ts ++ ']' :: rest)) (by simp at hf; omega) (fun _ => stops_blank _ _ hw' (stops_sep _ _ (by simp)))
    have hrec := elems_complete hts fuel rest (by simp at hf; omega)
    rw [parseElems]
    simp only [List.append_assoc, List.cons_append]
    rw [parseValue_blank w hw, hv]
    simp only
    rw [skipWs_blank w' _ hw', skipWs_cons _ _ (by decide)]
    simp only [hrec]
theorem members_complete {X : Ext} : ∀ {d : Nat} {t : Str} {l : List (Str × Node X)}, JMembers d t l → ∀ (fuel : Nat) (rest : Str),
    2 * t.length + 1 ≤ fuel → parseMembers fuel d (t ++ '}' :: rest) = some (l, rest)
  | _, _, _, .one d w k s w1 w2 t w3 n hw hk hw1 hw2 ht hw3, fuel, rest, hf => by
    obtain ⟨fuel, rfl⟩ : ∃ k, fuel = k + 1 := ⟨fuel - 1, by omega⟩
    have hv := val_complete ht fuel (w3 ++ '}' :: rest) (by simp at hf; omega) (fun _ => stops_blank _ _ hw3 (stops_sep _ _ (by simp)))
    have hs := parseStr_complete k s hk (w1 ++ ':' :: (w2 ++ (t ++ (w3 ++ '}' :: rest))))
    rw [parseMembers]
    simp only [List.append_assoc, List.cons_append]
    rw [skipWs_blank w _ hw, skipWs_cons _ _ (by decide)]
    simp only [hs]
    rw [skipWs_blank w1 _ hw1, skipWs_cons _ _ (by decide)]
    simp only
    rw [parseValue_blank w2 hw2, hv]
    simp only
    rw [skipWs_blank w3 _ hw3, skipWs_cons _ _ (by decide)]
    rfl
  | _, _, _, .more d w k s w1 w2 t w3 ts n m hw hk hw1 hw2 ht hw3 hts, fuel, rest, hf => by
    obtain ⟨fuel, rfl⟩ : ∃ k, fuel = k + 1 := ⟨fuel - 1, by omega⟩
    have hv := val_complete ht fuel (w3 ++ ',' :: (ts ++ '}' :: rest)) (by simp at hf; omega) (fun _ => stops_blank _ _ hw3 (stops_sep _ _ (by simp)))
    have hrec := members_complete hts fuel rest (by simp at hf; omega)
    have hs := parseStr_complete k s hk (w1 ++ ':' :: (w2 ++ (t ++ (w3 ++ ',' :: (ts ++ '}' :: rest)))))
    rw [parseMembers]
    simp only [List.append_assoc, List.cons_append]
    rw [skipWs_blank w _ hw, skipWs_cons _ _ (by decide)]
    simp only [hs]
    rw [skipWs_blank w1 _ hw1, skipWs_cons _ _ (by decide)]
    simp only
    rw [parseValue_blank w2 hw2, hv]
    simp only
    rw [skipWs_blank w3 _ hw3, skipWs_cons _ _ (by decide)]
    simp only [hrec]
end

/-! ### the number at the top -/

theorem parseValue_digit {X : Ext} (fuel d : Nat) (c : Char) (s : Str) (hc : isDigit c = true ∨ c = '-') :
    parseValue (X := X) (fuel + 1) d (c :: s) = (parseNumber (c :: s)).map (fun p => (.digits p.1, p.2)) := by
  obtain ⟨h0, h1, h2, h3, h4, h5, h6, _, _⟩ := ws_of_digit c hc
  rw [parseValue, skipWs_cons _ _ h0]
  split
  all_goals first
    | (rename_i he; injection he with he _; exact absurd he (by assumption))
    | (rename_i he; cases he; done)
    | (rename_i he; injection he with he1 he2; subst he1; subst he2; cases parseNumber (c :: s) <;> rfl)

theorem JNum_head (t : Str) (h : JNum t) : ∃ c r, t = c :: r ∧ (isDigit c = true ∨ c = '-') := isNumber_head t (isNumber_of_JNum t h)

/-- What a whole text must look like to mean `n`: white space, a value, and anything that does not continue it. -/
def Means {X : Ext} (s : Str) (n : Node X) : Prop :=
  ∃ w t r, s = w ++ (t ++ r) ∧ Blank w ∧ JVal maxDepth t n ∧ (JNum t → ¬ Extends t r)

/-- `Decode` gives exactly the nodes the grammar gives: no text that is not JSON is accepted, no JSON is refused and none is misread. Only the
first value counts; for a number it must be one that the next character cannot continue. -/
theorem C114_exact {X : Ext} (s : Str) (n : Node X) : decode s = some (some n) ↔ Means s n := by
  constructor
  · intro h
    unfold decode at h
    split at h
    · cases h
    split at h
    · rename_i n' r hp
      simp only [Option.some.injEq] at h
      subst h
      obtain ⟨w, t, rfl, hw, ht⟩ := (parse_sound _).1 _ _ _ _ hp
      refine ⟨w, t, r, rfl, hw, ht, ?_⟩
      intro hn
      rw [parseValue_blank w hw] at hp
      obtain ⟨c, t', rfl, hc⟩ := JNum_head t hn
      rw [fuelFor, List.cons_append, parseValue_digit _ _ _ _ hc] at hp
      cases hq : parseNumber (c :: (t' ++ r)) with
      | none => rw [hq] at hp; cases hp
      | some p =>
        obtain ⟨u, v⟩ := p
        rw [hq] at hp
        simp only [Option.map_some, Option.some.injEq, Prod.mk.injEq] at hp
        obtain ⟨_, rfl⟩ := hp
        obtain ⟨h1, _, h3⟩ := (parseNumber_iff _ _ _).1 hq
        have : c :: t' = u := List.append_cancel_right (by rw [List.cons_append]; exact h1)
        rw [this]; exact h3
    · cases h
  · rintro ⟨w, t, r, rfl, hw, ht, hx⟩
    obtain ⟨c0, t0, h0, _⟩ := val_head ht
    have hp : parseValue (fuelFor (w ++ (t ++ r))) maxDepth (w ++ (t ++ r)) = some (n, r) := by
      rw [parseValue_blank w hw]
      by_cases hn : JNum t
      · have hq := (parseNumber_iff (t ++ r) t r).2 ⟨rfl, hn, hx hn⟩
        have hv := val_complete ht (2 * t.length) [] (Nat.le_refl _) (fun _ => trivial)
        obtain ⟨c, t', rfl, hc⟩ := JNum_head t hn
        rw [List.append_nil, show 2 * (c :: t').length = (2 * t'.length + 1) + 1 by simp; omega, parseValue_digit _ _ _ _ hc] at hv
        have hi := isNumber_of_JNum _ hn
        have hi : parseNumber (c :: t') = some (c :: t', []) := by simpa [isNumber] using hi
        rw [hi] at hv
        simp only [Option.map_some, Option.some.injEq, Prod.mk.injEq, and_true] at hv
        rw [fuelFor, List.cons_append, parseValue_digit _ _ _ _ hc, ← List.cons_append, hq, ← hv]; rfl
      · exact val_complete ht _ r (by simp [fuelFor]; omega) (fun h => absurd h hn)
    unfold decode
    rw [if_neg (by rw [h0]; simp), hp]

/-- A text is refused exactly when no JSON value starts it; only the empty text gives no node and no error. -/
theorem C114_refused {X : Ext} (s : Str) : (decode (X := X) s = none ↔ s ≠ [] ∧ ∀ n : Node X, ¬ Means s n) ∧ (decode (X := X) s = some none ↔ s = []) := by
  have he : decode (X := X) s = some none ↔ s = [] := by
    unfold decode
    split
    · rename_i h; simp [h]
    · rename_i h
      split <;> simp [h]
  refine ⟨⟨?_, ?_⟩, he⟩
  · intro h
    refine ⟨fun h0 => ?_, fun n hn => ?_⟩
    · rw [he.2 h0] at h; cases h
    · rw [(C114_exact s n).2 hn] at h; cases h
  · rintro ⟨h0, h1⟩
    cases hd : decode (X := X) s with
    | none => rfl
    | some o =>
      cases o with
      | none => exact absurd (he.1 hd) h0
      | some n => exact absurd ((C114_exact s n).1 hd) (h1 n)

/-- A document (a value between white space) means one node only, and `Decode` gives it. -/
theorem C114_document {X : Ext} (w t w' : Str) (n : Node X) (hw : Blank w) (hw' : Blank w') (ht : JVal maxDepth t n) :
    decode (w ++ (t ++ w')) = some (some n) ∧ ∀ m : Node X, JVal maxDepth t m → m = n := by
  have key : ∀ m : Node X, JVal maxDepth t m → decode (w ++ (t ++ w')) = some (some m) := by
    intro m hm
    refine (C114_exact _ _).2 ⟨w, t, w', rfl, hw, hm, ?_⟩
    intro hn ⟨c, r', x, hc, hx⟩
    have hp : parseNumber (t ++ c :: r') = some (t, c :: r') := by
      apply parseNumber_of_isNumber _ _ _ (isNumber_of_JNum t hn)
      have := stops_blank w' [] hw' trivial
      rw [List.append_nil, hc] at this
      exact this
    exact ((parseNumber_iff _ _ _).1 hp).2.2 ⟨c, r', x, rfl, hx⟩
  refine ⟨key n ht, fun m hm => ?_⟩
  have := (key m hm).symm.trans (key n ht)
  simpa using this

/-- `01` is read as `0`: only the first value counts, and no number continues `0` with a digit. `1.` is refused, `\"\ud83d\ude00\"` is one
character, a lone half is U+FFFD, the last of equal keys wins. -/
example : decode (X := XJ) (lit "01") = some (some (.digits (lit "0"))) ∧ decode (X := XJ) (lit "1.") = none ∧
    decode (X := XJ) (lit " [1e5.]") = none ∧ decode (X := XJ) (lit "\"\\ud83d\\ude00\\ud83d\"") = some (some (.str [Char.ofNat 0x1F600, Char.ofNat 0xFFFD])) ∧
    decode (X := XJ) (lit "{\"a\":1, \"a\" :[ ]}x") = some (some (.map [(lit "a", .list [])])) := by decide +kernel

example : JNum (lit "-10.50e+3") :=
  ⟨['-'], ['1', '0'], ['.', '5', '0'], ['e', '+', '3'], rfl, Or.inr rfl, Or.inr ⟨⟨by decide, by decide⟩, by decide⟩, Or.inr ⟨['5', '0'], rfl, by decide, by decide⟩,
    Or.inr ⟨'e', ['+'], ['3'], rfl, Or.inl rfl, Or.inr (Or.inl rfl), by decide, by decide⟩⟩

end Verif.Enc

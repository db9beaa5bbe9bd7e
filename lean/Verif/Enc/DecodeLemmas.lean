import Verif.Enc.GoodLemmas
/-!
# What decoding JSON can give: plain, well-formed, encodable nodes, nested at most 10000 deep
-/
set_option autoImplicit false
namespace Verif.Enc
open Verif.Strconv
variable {X : Ext}

/-- The text does not start with a digit. -/
def NoDigit (s : Str) : Prop := ∀ c r, s = c :: r → isDigit c = false

theorem spanDigits_facts (s : Str) : (∀ c ∈ (spanDigits s).1, isDigit c = true) ∧ s = (spanDigits s).1 ++ (spanDigits s).2 := by
  induction s with
  | nil => simp [spanDigits]
  | cons c s ih =>
    simp only [spanDigits]
    by_cases hc : isDigit c = true
    · rw [if_pos hc]
      refine ⟨?_, ?_⟩
      · intro x hx
        rcases List.mem_cons.1 hx with rfl | hx
        · exact hc
        · exact ih.1 x hx
      · simp only [List.cons_append]; rw [← ih.2]
    · rw [if_neg hc]; simp

theorem spanDigits_stop (a x : Str) (ha : ∀ c ∈ a, isDigit c = true) (hx : NoDigit x) : spanDigits (a ++ x) = (a, x) := by
  induction a with
  | nil =>
    cases x with
    | nil => rfl
    | cons c r => simp [spanDigits, hx c r rfl]
  | cons c a ih => simp [spanDigits, ha c (by simp), ih (fun y hy => ha y (by simp [hy]))]

theorem numInt_self (s i r x : Str) (h : numInt s = some (i, r)) (hx : NoDigit x) : numInt (i ++ x) = some (i, x) ∧ i ≠ [] := by
  cases s with
  | nil => simp [numInt] at h
  | cons c s =>
    by_cases hc : c = '0'
    · subst hc
      simp only [numInt, Option.some.injEq, Prod.mk.injEq] at h
      obtain ⟨rfl, rfl⟩ := h
      exact ⟨rfl, by simp⟩
    · have e1 : ∀ l, numInt (c :: l) = if isDigit c then some (spanDigits (c :: l)) else none := by
        intro l; rw [numInt]; exact hc
      rw [e1] at h
      split at h
      · rename_i hd
        injection h with h
        have hf := spanDigits_facts (c :: s)
        rw [h] at hf
        have hi : ∃ i', i = c :: i' := by
          simp only [spanDigits, hd, if_true, Prod.mk.injEq] at h
          exact ⟨_, h.1.symm⟩
        obtain ⟨i', rfl⟩ := hi
        refine ⟨?_, by simp⟩
        simp only [List.cons_append]
        rw [e1, if_pos hd, ← List.cons_append, spanDigits_stop _ x hf.1 hx]
      · cases h

/-- Empty, or an exponent. -/
def ExpLike (e : Str) : Prop := e = [] ∨ ∃ c r, e = c :: r ∧ (c = 'e' ∨ c = 'E')

theorem expLike_noDigit (e : Str) (h : ExpLike e) : NoDigit e := by
  intro c r he
  rcases h with rfl | ⟨c', r', rfl, hc⟩
  · cases he
  · injection he with h1 _; subst h1
    rcases hc with rfl | rfl <;> decide

theorem numFrac_self (s f r e : Str) (h : numFrac s = some (f, r)) (he : ExpLike e) : numFrac (f ++ e) = some (f, e) ∧ NoDigit (f ++ e) := by
  have hnil : numFrac e = some ([], e) := by
    rcases he with rfl | ⟨c, r, rfl, hc⟩
    · rfl
    · rw [numFrac]; intro r' he; injection he with he; subst he; rcases hc with h | h <;> cases h
  cases s with
  | nil =>
    simp only [numFrac, Option.some.injEq, Prod.mk.injEq] at h
    obtain ⟨rfl, rfl⟩ := h
    exact ⟨hnil, expLike_noDigit e he⟩
  | cons c s =>
    by_cases hc : c = '.'
    · subst hc
      simp only [numFrac] at h
      split at h
      · cases h
      · rename_i hne
        injection h with h
        injection h with h1 h2
        subst h1
        have hf := spanDigits_facts s
        refine ⟨?_, ?_⟩
        · simp only [List.cons_append, numFrac]
          rw [spanDigits_stop _ e hf.1 (expLike_noDigit e he)]
          simp [hne]
        · intro c r h; injection h with h _; subst h; decide
    · have e1 : numFrac (c :: s) = some ([], c :: s) := by
        rw [numFrac]; intro r' he; injection he with he; exact hc he
      rw [e1] at h
      injection h with h; injection h with h1 h2
      subst h1
      exact ⟨hnil, expLike_noDigit e he⟩

theorem numExp_self (s e r : Str) (h : numExp s = some (e, r)) : numExp e = some (e, []) ∧ ExpLike e := by
  cases s with
  | nil =>
    simp only [numExp, Option.some.injEq, Prod.mk.injEq] at h
    obtain ⟨rfl, rfl⟩ := h
    exact ⟨rfl, .inl rfl⟩
  | cons c s =>
    simp only [numExp] at h
    split at h
    · rename_i hc
      cases s with
      | nil => cases h
      | cons g s =>
        simp only at h
        split at h
        · rename_i hg
          split at h
          · cases h
          · rename_i hne
            injection h with h; injection h with h1 h2
            subst h1
            have hf := spanDigits_facts s
            refine ⟨?_, .inr ⟨_, _, rfl, hc⟩⟩
            simp only [numExp]
            rw [if_pos hc, if_pos hg, spanDigits_all _ hf.1]
            simp only [hne, if_false]
        · rename_i hg
          split at h
          · cases h
          · rename_i hne
            injection h with h; injection h with h1 h2
            subst h1
            have hf := spanDigits_facts (g :: s)
            refine ⟨?_, .inr ⟨_, _, rfl, hc⟩⟩
            cases hp : (spanDigits (g :: s)).1 with
            | nil => exact absurd hp hne
            | cons g' s' =>
              have hg' : isDigit g' = true := hf.1 g' (by rw [hp]; simp)
              have hng : ¬ (g' = '+' ∨ g' = '-') := by
                rintro (rfl | rfl) <;> exact absurd hg' (by decide)
              simp only [numExp]
              rw [if_pos hc, if_neg hng, ← hp, spanDigits_all _ hf.1]
              simp only [hne, if_false]
    · injection h with h; injection h with h1 h2; subst h1
      exact ⟨rfl, .inl rfl⟩

theorem numBody_self (sign s n r : Str) (h : numBody sign s = some (n, r)) : ∃ body, n = sign ++ body ∧ body ≠ [] ∧ (∀ c x, body = c :: x → c ≠ '-') ∧
    numBody sign body = some (sign ++ body, []) := by
  unfold numBody at h
  cases h1 : numInt s with
  | none => rw [h1] at h; cases h
  | some p =>
    obtain ⟨i, s2⟩ := p
    rw [h1] at h; simp only at h
    cases h2 : numFrac s2 with
    | none => rw [h2] at h; cases h
    | some p =>
      obtain ⟨f, s3⟩ := p
      rw [h2] at h; simp only at h
      cases h3 : numExp s3 with
      | none => rw [h3] at h; cases h
      | some p =>
        obtain ⟨e, s4⟩ := p
        rw [h3] at h; simp only at h
        injection h with h; injection h with h4 h5
        subst h4
        obtain ⟨he, hel⟩ := numExp_self s3 e s4 h3
        obtain ⟨hf, hnd⟩ := numFrac_self s2 f s3 e h2 hel
        obtain ⟨hi, hne⟩ := numInt_self s i s2 (f ++ e) h1 hnd
        refine ⟨i ++ (f ++ e), by simp, by simp [hne], ?_, ?_⟩
        · intro c x hc hm
          subst hm
          rw [hc] at hi
          rw [numInt] at hi
          · simp [show isDigit '-' = false by decide] at hi
          · decide
        · unfold numBody
          rw [hi]; simp only; rw [hf]; simp only; rw [he]; simp

theorem parseNumber_self (s n r : Str) (h : parseNumber s = some (n, r)) : isNumber n = true := by
  have key : ∀ sign s, (sign = [] ∨ sign = ['-']) → numBody sign s = some (n, r) → parseNumber n = some (n, []) := by
    intro sign s hs hb
    obtain ⟨body, rfl, hne, hm, hb⟩ := numBody_self sign s n r hb
    rcases hs with rfl | rfl
    · cases body with
      | nil => exact absurd rfl hne
      | cons c x =>
        simp only [List.nil_append] at hb ⊢
        rw [parseNumber]
        · exact hb
        · intro r hr; injection hr with hr; exact hm c x rfl hr
    · simp only [List.cons_append, List.nil_append] at hb ⊢
      rw [parseNumber]; exact hb
  unfold isNumber
  rw [beq_iff_eq]
  unfold parseNumber at h
  split at h
  · exact key _ _ (.inr rfl) h
  · exact key _ _ (.inl rfl) h

/-- What decoding gives. -/
def Decoded (d : Nat) (n : Node X) : Prop := n.plain = true ∧ Good n ∧ n.depth ≤ d

theorem decoded_list (d : Nat) (l : List (Node X)) (h : ∀ n ∈ l, Decoded d n) : Decoded (d + 1) (.list l) := by
  refine ⟨?_, good_list l fun n hn => (h n hn).2.1, ?_⟩
  · show Node.listPlain l = true
    induction l with
    | nil => rfl
    | cons n l ih => simp [Node.listPlain, (h n (by simp)).1, ih (fun x hx => h x (by simp [hx]))]
  · show Node.listDepth l + 1 ≤ d + 1
    have : Node.listDepth l ≤ d := by
      induction l with
      | nil => simp [Node.listDepth]
      | cons n l ih =>
        have := (h n (by simp)).2.2
        have := ih (fun x hx => h x (by simp [hx]))
        simp only [Node.listDepth]; omega
    omega

theorem decoded_map (d : Nat) (m : List (Str × Node X)) (hs : SortedKeys m) (h : ∀ e ∈ m, Decoded d e.2) : Decoded (d + 1) (.map m) := by
  refine ⟨?_, good_map m hs fun n hn => (h n hn).2.1, ?_⟩
  · show Node.mapPlain m = true
    clear hs
    induction m with
    | nil => rfl
    | cons e m ih =>
      have h1 := (h e (by simp)).1
      have ih := ih (fun x hx => h x (by simp [hx]))
      obtain ⟨k, n⟩ := e
      simp only at h1
      simp [Node.mapPlain, h1, ih]
  · show Node.mapDepth m + 1 ≤ d + 1
    have : Node.mapDepth m ≤ d := by
      clear hs
      induction m with
      | nil => simp [Node.mapDepth]
      | cons e m ih =>
        have h1 := (h e (by simp)).2.2
        have := ih (fun x hx => h x (by simp [hx]))
        obtain ⟨k, n⟩ := e
        simp only at h1
        simp only [Node.mapDepth]; omega
    omega

theorem decoded_leaf (d : Nat) (n : Node X) (h1 : n.plain = true) (h2 : n.WF) (h3 : n.encodable = true) (h4 : n.depth = 0) : Decoded d n :=
  ⟨h1, ⟨h2, fun _ => h3⟩, by omega⟩

theorem parse_decoded : ∀ (fuel : Nat),
    (∀ d s (n : Node X) r, parseValue fuel d s = some (n, r) → Decoded d n) ∧
    (∀ d s (l : List (Node X)) r, parseElems fuel d s = some (l, r) → ∀ n ∈ l, Decoded d n) ∧
    (∀ d s (m : List (Str × Node X)) r, parseMembers fuel d s = some (m, r) → ∀ e ∈ m, Decoded d e.2) := by
  intro fuel
  induction fuel with
  | zero =>
    refine ⟨?_, ?_, ?_⟩
    · intro d s n r h; simp [parseValue] at h
    · intro d s n r h; simp [parseElems] at h
    · intro d s n r h; simp [parseMembers] at h
  | succ fuel ih =>
    obtain ⟨ih1, ih2, ih3⟩ := ih
    refine ⟨?_, ?_, ?_⟩
    · intro d s n r h
      simp only [parseValue] at h
      split at h
      · cases h
      · injection h with h; injection h with h _; subst h; exact decoded_leaf d _ rfl trivial rfl rfl
      · injection h with h; injection h with h _; subst h; exact decoded_leaf d _ rfl trivial rfl rfl
      · injection h with h; injection h with h _; subst h; exact decoded_leaf d _ rfl trivial rfl rfl
      · split at h
        · injection h with h; injection h with h _; subst h; exact decoded_leaf d _ rfl trivial rfl rfl
        · cases h
      · split at h
        · cases h
        · split at h
          · injection h with h; injection h with h _; subst h; exact decoded_list _ [] (by simp)
          · split at h
            · rename_i hp
              injection h with h; injection h with h _; subst h
              exact decoded_list _ _ (ih2 _ _ _ _ hp)
            · cases h
      · split at h
        · cases h
        · split at h
          · injection h with h; injection h with h _; subst h; exact decoded_map _ [] (by simp [SortedKeys]) (by simp)
          · split at h
            · rename_i hp
              injection h with h; injection h with h _; subst h
              exact decoded_map _ _ (sorted_ofEntries _) (fun e he => ih3 _ _ _ _ hp e (mem_ofEntries _ _ he))
            · cases h
      · split at h
        · rename_i hp
          injection h with h; injection h with h _; subst h
          exact decoded_leaf d _ rfl trivial (parseNumber_self _ _ _ hp) rfl
        · cases h
    · intro d s l r h
      simp only [parseElems] at h
      split at h
      · cases h
      · rename_i hv
        have h0 := ih1 _ _ _ _ hv
        split at h
        · split at h
          · rename_i hp
            injection h with h; injection h with h _; subst h
            intro n hn
            rcases List.mem_cons.1 hn with rfl | hn
            · exact h0
            · exact ih2 _ _ _ _ hp n hn
          · cases h
        · injection h with h; injection h with h _; subst h
          intro n hn
          rcases List.mem_singleton.1 hn with rfl
          exact h0
        · cases h
    · intro d s m r h
      simp only [parseMembers] at h
      split at h
      · split at h
        · cases h
        · split at h
          · split at h
            · cases h
            · rename_i hv
              have h0 := ih1 _ _ _ _ hv
              split at h
              · split at h
                · rename_i hp
                  injection h with h; injection h with h _; subst h
                  intro n hn
                  rcases List.mem_cons.1 hn with rfl | hn
                  · exact h0
                  · exact ih3 _ _ _ _ hp n hn
                · cases h
              · injection h with h; injection h with h _; subst h
                intro n hn
                rcases List.mem_singleton.1 hn with rfl
                exact h0
              · cases h
          · cases h
      · cases h

/-- Whatever decodes is plain, well formed, encodable and nested at most 10000 deep. -/
theorem decode_decoded (s : Str) (n : Node X) (h : decode s = some (some n)) : n.plain = true ∧ n.WF ∧ n.encodable = true ∧ n.depth ≤ maxDepth := by
  unfold decode at h
  split at h
  · simp at h
  · split at h
    · rename_i hp
      injection h with h; injection h with h; subst h
      obtain ⟨h1, h2, h3⟩ := (parse_decoded _).1 _ _ _ _ hp
      exact ⟨h1, h2.1, h2.2 h3, h3⟩
    · cases h

end Verif.Enc

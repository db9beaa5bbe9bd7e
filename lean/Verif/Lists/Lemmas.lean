import Verif.Lists.Spec
namespace Verif.Lists

variable {α : Type}

theorem flatten_eq (l : List (List α)) : flatten l = l.flatten := by
  have h : ∀ (l : List (List α)) (acc : List α), l.foldl (fun out group => out ++ group) acc = acc ++ l.flatten := by
    intro l
    induction l with
    | nil => simp
    | cons a l ih => intro acc; simp [ih]
  simpa [flatten] using h l []

theorem slice_chunk (inp : List α) (c i : Nat) (h : i * c ≤ inp.length) :
    Go.slice inp ((i : Int) * c)
      (if (i : Int) * c + c > inp.length then (inp.length : Int) else (i : Int) * c + c)
      = .ok ((inp.drop (i * c)).take c) := by
  have e1 : ((i : Int) * c).toNat = i * c := by
    rw [← Int.natCast_mul, Int.toNat_natCast]
  have hle : (i : Int) * c ≤ inp.length := by rw [← Int.natCast_mul]; omega
  have hpos : (0:Int) ≤ (i : Int) * c := by rw [← Int.natCast_mul]; omega
  split
  · rename_i hgt
    rw [Go.slice, if_pos ⟨hpos, hle, by omega⟩, e1]
    have : inp.length - i * c ≤ c := by rw [← Int.natCast_mul] at hgt; omega
    simp only [Int.toNat_natCast, List.take_length]
    rw [List.take_of_length_le (by simpa using this)]
  · rename_i hgt
    rw [Go.slice, if_pos ⟨hpos, by omega, by omega⟩, e1]
    have e2 : ((i : Int) * c + c).toNat = i * c + c := by
      rw [← Int.natCast_mul]; omega
    rw [e2, List.drop_take]
    simp

theorem splitLoop_eq (inp : List α) (c : Nat) (is : List Nat) (h : ∀ i ∈ is, i * c ≤ inp.length) :
    splitLoop inp (c : Int) is = .ok (is.map fun i => (inp.drop (i * c)).take c) := by
  induction is with
  | nil => rfl
  | cons i is ih =>
    simp only [splitLoop]
    rw [slice_chunk inp c i (h i (by simp)), ih (fun j hj => h j (by simp [hj]))]
    rfl

theorem chunks_flatten (inp : List α) (c : Nat) : ∀ b, 
    ((List.range b).map fun i => (inp.drop (i * c)).take c).flatten = inp.take (b * c) := by
  intro b
  induction b with
  | zero => simp
  | succ b ih =>
    rw [List.range_succ, List.map_append, List.flatten_append, ih]
    simp only [List.map_cons, List.map_nil, List.flatten_cons, List.flatten_nil, List.append_nil]
    rw [Nat.succ_mul, List.take_add]

/-- Ceiling division facts used by `Split`. -/
theorem ceil_facts (n m : Nat) (hm : 0 < m) (hn : m < n) :
    let b := (n + m - 1) / m
    let c := (n + b - 1) / b
    0 < b ∧ 0 < c ∧ c ≤ m ∧ n ≤ b * c ∧ (b - 1) * c < n ∧ (b - 1) * m < n := by
  intro b c
  have hb : 0 < b := Nat.div_pos (by omega) hm
  have h1 : n ≤ b * m := by
    have := Nat.lt_succ_mul_div_add_one_aux n m hm
    exact this
  have h2 : (b - 1) * m < n := by
    have : b * m ≤ n + m - 1 := Nat.div_mul_le_self _ _
    have : (b - 1) * m + m = b * m := by
      rw [← Nat.succ_mul]; congr 1; omega
    omega
  have hc : n ≤ b * c := by
    rw [Nat.mul_comm]
    exact Nat.lt_succ_mul_div_add_one_aux n b hb
  have hcm : c ≤ m := by
    have : c < m + 1 := by
      rw [Nat.div_lt_iff_lt_mul hb]
      rw [Nat.succ_mul, Nat.mul_comm m b]; omega
    omega
  have hcpos : 0 < c := Nat.div_pos (by omega) hb
  refine ⟨hb, hcpos, hcm, hc, ?_, h2⟩
  exact Nat.lt_of_le_of_lt (Nat.mul_le_mul_left _ hcm) h2
where
  Nat.lt_succ_mul_div_add_one_aux (n m : Nat) (hm : 0 < m) : n ≤ (n + m - 1) / m * m := by
    have h := Nat.div_add_mod (n + m - 1) m
    have h2 := Nat.mod_lt (n + m - 1) hm
    rw [Nat.mul_comm] at h
    omega

theorem length_le_of_parts (m : Nat) (parts : List (List α)) (h : ∀ c ∈ parts, c.length ≤ m) :
    parts.flatten.length ≤ parts.length * m := by
  induction parts with
  | nil => simp
  | cons a l ih =>
    have := ih (fun c hc => h c (by simp [hc]))
    have := h a (by simp)
    simp only [List.flatten_cons, List.length_append, List.length_cons, Nat.succ_mul]; omega

theorem reverseLoop_spec (orig : List α) : ∀ (fuel k : Nat) (a : List α),
    a.length = orig.length → k ≤ orig.length / 2 → orig.length / 2 ≤ k + fuel →
    (∀ (p : Nat), p < k → a[p]? = orig[orig.length - 1 - p]?) →
    (∀ (p : Nat), orig.length - k ≤ p → p < orig.length → a[p]? = orig[orig.length - 1 - p]?) →
    (∀ (p : Nat), k ≤ p → p < orig.length - k → a[p]? = orig[p]?) →
    reverseLoop orig.length fuel (k : Int) ((orig.length : Int) - 1 - k) a = .ok orig.reverse := by
  intro fuel
  have hdone : ∀ (k : Nat) (a : List α), a.length = orig.length → k = orig.length / 2 →
    (∀ (p : Nat), p < k → a[p]? = orig[orig.length - 1 - p]?) →
    (∀ (p : Nat), orig.length - k ≤ p → p < orig.length → a[p]? = orig[orig.length - 1 - p]?) →
    (∀ (p : Nat), k ≤ p → p < orig.length - k → a[p]? = orig[p]?) → a = orig.reverse := by
    intro k a hl hk h1 h2 h3
    apply List.ext_getElem?
    intro p
    by_cases hp : p < orig.length
    · rw [List.getElem?_reverse hp]
      rcases Nat.lt_or_ge p k with h | h
      · exact h1 p h
      · rcases Nat.lt_or_ge p (orig.length - k) with h' | h'
        · rw [h3 p h h']
          have : orig.length - 1 - p = p := by omega
          rw [this]
        · exact h2 p h' hp
    · rw [List.getElem?_eq_none (by omega), List.getElem?_eq_none (by simp; omega)]
  have hdiv : ((orig.length : Int).tdiv 2) = ((orig.length / 2 : Nat) : Int) := by
    rw [Int.tdiv_eq_ediv_of_nonneg (by omega)]; rfl
  induction fuel with
  | zero =>
    intro k a hl hk hf h1 h2 h3
    unfold reverseLoop
    rw [hdiv, if_neg (by omega)]
    rw [hdone k a hl (by omega) h1 h2 h3]
  | succ fuel ih =>
    intro k a hl hk hf h1 h2 h3
    unfold reverseLoop
    rw [hdiv]
    split
    · rename_i hlt
      have hlt' : k < orig.length / 2 := by omega
      have ej : ((orig.length : Int) - 1 - k) = ((orig.length - 1 - k : Nat) : Int) := by omega
      rw [ej, Go.swap_nat a k (orig.length - 1 - k) (by omega) (by omega)]
      simp only [bind, Except.bind]
      have e3 : ((orig.length - 1 - k : Nat) : Int) - 1 = (orig.length : Int) - 1 - ((k + 1 : Nat) : Int) := by omega
      have e4 : ((k : Int) + 1) = ((k + 1 : Nat) : Int) := by omega
      rw [e3, e4]
      have hk1 : a[k]? = orig[k]? := h3 k (by omega) (by omega)
      have hk2 : a[orig.length - 1 - k]? = orig[orig.length - 1 - k]? := h3 _ (by omega) (by omega)
      rw [List.getElem?_eq_getElem (by omega), List.getElem?_eq_getElem (by omega)] at hk1 hk2
      injection hk1 with hk1
      injection hk2 with hk2
      rw [hk1, hk2]
      apply ih (k + 1) _ (by simpa using hl) (by omega) (by omega)
      · intro p hp
        rw [List.getElem?_set_ne (by omega)]
        by_cases hpk : p = k
        · subst hpk
          rw [List.getElem?_set_self (by omega), List.getElem?_eq_getElem (by omega)]
        · rw [List.getElem?_set_ne (by omega)]
          exact h1 p (by omega)
      · intro p hp1 hp2
        by_cases hpk : p = orig.length - 1 - k
        · subst hpk
          rw [List.getElem?_set_self (by simp; omega)]
          have : orig.length - 1 - (orig.length - 1 - k) = k := by omega
          rw [this, List.getElem?_eq_getElem (by omega)]
        · rw [List.getElem?_set_ne (by omega), List.getElem?_set_ne (by omega)]
          exact h2 p (by omega) hp2
      · intro p hp1 hp2
        rw [List.getElem?_set_ne (by omega), List.getElem?_set_ne (by omega)]
        exact h3 p (by omega) (by omega)
    · rename_i hge
      rw [hdone k a hl (by omega) h1 h2 h3]

theorem contains_iff [DecidableEq α] (a : List α) (i : α) : contains a i = true ↔ i ∈ a := by
  induction a with
  | nil => simp [contains]
  | cons e a ih =>
    simp only [contains]
    split
    · rename_i h; simp [h]
    · rename_i h; rw [ih]; simp; intro h'; exact absurd h'.symm h

theorem set_run_spec [DecidableEq α] (ops : List (SetOp α)) : ∀ (s : Set α) (m : α → Bool),
    s.keys.Nodup → (∀ x, m x = decide (x ∈ s.keys)) →
    (s.run ops).2 = (specRun m ops).2 ∧ (s.run ops).1.keys.Nodup ∧
      ∀ x, (specRun m ops).1 x = decide (x ∈ (s.run ops).1.keys) := by
  induction ops with
  | nil => intro s m hn hm; exact ⟨rfl, hn, hm⟩
  | cons op ops ih =>
    intro s m hn hm
    cases op with
    | add t =>
      simp only [Set.run, specRun]
      have hcl : (s.add t).1.keys.Nodup ∧ (∀ x, (fun x => x == t || m x) x = decide (x ∈ (s.add t).1.keys))
          ∧ (s.add t).2 = !m t := by
        unfold Set.add
        split
        · rename_i h
          refine ⟨hn, ?_, by simp [hm, h]⟩
          intro x
          by_cases hx : x = t
          · subst hx; simp [h]
          · simp [hm, hx]
        · rename_i h
          refine ⟨by simp [hn, h], ?_, by simp [hm, h]⟩
          intro x
          by_cases hx : x = t
          · subst hx; simp
          · simp [hm, hx]
      have := ih (s.add t).1 _ hcl.1 hcl.2.1
      exact ⟨by rw [this.1, hcl.2.2], this.2⟩
    | remove t =>
      simp only [Set.run, specRun]
      have hcl : (s.remove t).1.keys.Nodup ∧ (∀ x, (fun x => x != t && m x) x = decide (x ∈ (s.remove t).1.keys))
          ∧ (s.remove t).2 = m t := by
        unfold Set.remove
        split
        · rename_i h
          refine ⟨hn.erase t, ?_, by simp [hm, h]⟩
          intro x
          simp only [hn.mem_erase_iff, hm, bne]
          by_cases hx : x = t <;> simp [hx]
        · rename_i h
          refine ⟨hn, ?_, by simp [hm, h]⟩
          intro x
          by_cases hx : x = t
          · subst hx; simp [h]
          · simp [hm, hx]
      have := ih (s.remove t).1 _ hcl.1 hcl.2.1
      exact ⟨by rw [this.1, hcl.2.2], this.2⟩
    | has t =>
      simp only [Set.run, specRun]
      have := ih s m hn hm
      exact ⟨by rw [this.1]; simp [Set.has, hm], this.2⟩

end Verif.Lists

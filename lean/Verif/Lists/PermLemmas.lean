import Verif.Lists.PermSpec
set_option autoImplicit false
set_option linter.unusedSimpArgs false
namespace Verif.Lists

variable {α : Type}

/-- `el` occurs in `l` next to a smaller element it points to. -/
def Mob (l : List PermElem) (el : PermElem) : Prop :=
  (∃ a y b, l = a ++ el :: y :: b ∧ el.right = true ∧ y.orig ≤ el.orig) ∨
  (∃ a y b, l = a ++ y :: el :: b ∧ el.right = false ∧ y.orig ≤ el.orig)

/-- One step of the algorithm, position free: the largest mobile element `m` changes place with its neighbour. -/
def Step (l l' : List PermElem) (a : List PermElem) (x y : PermElem) (b : List PermElem) : Prop :=
  l = a ++ x :: y :: b ∧
  ((x.right = true ∧ y.orig ≤ x.orig ∧ (∀ el, Mob l el → el.orig ≤ x.orig) ∧ l' = flip x.orig (a ++ y :: x :: b)) ∨
   (y.right = false ∧ x.orig ≤ y.orig ∧ (∀ el, Mob l el → el.orig ≤ y.orig) ∧ l' = flip y.orig (a ++ y :: x :: b)))

def Stuck (l : List PermElem) : Prop := ∀ el, ¬ Mob l el

def Next (l l' : List PermElem) : Prop := ∃ a x y b, Step l l' a x y b

def flipE (bo : Int) (el : PermElem) : PermElem := if (el.orig : Int) > bo then { el with right := !el.right } else el

theorem flip_eq (bo : Int) (l : List PermElem) : flip bo l = l.map (flipE bo) := rfl

@[simp] theorem flipE_orig (bo : Int) (el : PermElem) : (flipE bo el).orig = el.orig := by
  unfold flipE; split <;> rfl

/-! ### index view of mobility, as the scan computes it -/

def mobAt (l : List PermElem) (i : Nat) : Bool :=
  match l[i]? with
  | none => false
  | some el =>
    if el.right then
      match l[i + 1]? with
      | none => false
      | some nx => !decide (nx.orig > el.orig)
    else
      match i with
      | 0 => false
      | j + 1 =>
        match l[j]? with
        | none => false
        | some pv => !decide (pv.orig > el.orig)

theorem canMove_eq (l : List PermElem) (i : Nat) (el : PermElem) (h : l[i]? = some el) : canMove l i el = .ok (mobAt l i) := by
  obtain ⟨hi, hel⟩ := List.getElem?_eq_some_iff.1 h
  unfold canMove mobAt
  rw [h]
  simp only
  cases hr : el.right with
  | true =>
    simp only [if_true]
    by_cases hl : i + 1 < l.length
    · have h1 : ¬ ((i : Int) = (l.length : Int) - 1) := by omega
      have h2 : ((i : Int) + 1) = ((i + 1 : Nat) : Int) := by omega
      rw [if_neg h1, h2, Go.idx_nat l (i + 1) hl, Go.idx_nat l i hi, List.getElem?_eq_getElem hl, hel]
      rfl
    · have h1 : ((i : Int) = (l.length : Int) - 1) := by omega
      rw [if_pos h1, List.getElem?_eq_none (by omega)]
  | false =>
    simp only [Bool.false_eq_true, if_false]
    cases i with
    | zero => simp
    | succ j =>
      have h1 : ¬ (j + 1 = 0) := by omega
      have h2 : (((j + 1 : Nat) : Int) - 1) = (j : Int) := by omega
      have hj : j < l.length := by omega
      rw [if_neg h1, h2, Go.idx_nat l j hj, Go.idx_nat l (j + 1) hi, hel]
      simp only [List.getElem?_eq_getElem hj]
      rfl

theorem zip_of_two {l : List PermElem} {i : Nat} {x y : PermElem} (hx : l[i]? = some x) (hy : l[i + 1]? = some y) :
    l = l.take i ++ x :: y :: l.drop (i + 2) := by
  obtain ⟨h1, e1⟩ := List.getElem?_eq_some_iff.1 hx
  obtain ⟨h2, e2⟩ := List.getElem?_eq_some_iff.1 hy
  have := List.take_append_drop i l
  rw [List.drop_eq_getElem_cons h1, List.drop_eq_getElem_cons h2, e1, e2] at this
  exact this.symm

theorem mobAt_mob {l : List PermElem} {i : Nat} {el : PermElem} (h : l[i]? = some el) (hm : mobAt l i = true) : Mob l el := by
  unfold mobAt at hm
  rw [h] at hm
  simp only at hm
  cases hr : el.right with
  | true =>
    rw [hr] at hm
    simp only [if_true] at hm
    cases hn : l[i + 1]? with
    | none => rw [hn] at hm; cases hm
    | some y =>
      rw [hn] at hm
      left
      exact ⟨_, y, _, zip_of_two h hn, hr, by simpa using hm⟩
  | false =>
    rw [hr] at hm
    simp only [Bool.false_eq_true, if_false] at hm
    cases i with
    | zero => cases hm
    | succ j =>
      simp only at hm
      cases hn : l[j]? with
      | none => rw [hn] at hm; cases hm
      | some y =>
        rw [hn] at hm
        right
        exact ⟨_, y, _, zip_of_two hn h, hr, by simpa using hm⟩

theorem mobAt_right (a b : List PermElem) (x y : PermElem) (hr : x.right = true) (h : y.orig ≤ x.orig) :
    mobAt (a ++ x :: y :: b) a.length = true := by
  unfold mobAt
  have h1 : (a ++ x :: y :: b)[a.length]? = some x := by simp
  have h2 : (a ++ x :: y :: b)[a.length + 1]? = some y := by
    rw [List.getElem?_append_right (by omega)]; simp
  rw [h1, h2]
  simp [hr, h]

theorem mobAt_left (a b : List PermElem) (x y : PermElem) (hr : y.right = false) (h : x.orig ≤ y.orig) :
    mobAt (a ++ x :: y :: b) (a.length + 1) = true := by
  unfold mobAt
  have h1 : (a ++ x :: y :: b)[a.length]? = some x := by simp
  have h2 : (a ++ x :: y :: b)[a.length + 1]? = some y := by
    rw [List.getElem?_append_right (by omega)]; simp
  rw [h2]
  simp [hr, h]

/-- What the scan has found after the first `n` positions. -/
def Found (l : List PermElem) (n : Nat) (bo b : Int) : Prop :=
  (bo = -1 ∧ b = -1 ∧ ∀ i < n, mobAt l i = false) ∨
  (∃ j el, j < n ∧ b = (j : Int) ∧ l[j]? = some el ∧ bo = (el.orig : Int) ∧ mobAt l j = true ∧
    ∀ i e, i < n → l[i]? = some e → mobAt l i = true → (e.orig : Int) ≤ bo)

theorem scan_spec (l : List PermElem) : ∀ (rest pre : List PermElem) (bo b : Int), l = pre ++ rest → Found l pre.length bo b →
    ∃ bo' b', scan l rest pre.length (bo, b) = .ok (bo', b') ∧ Found l l.length bo' b' := by
  intro rest
  induction rest with
  | nil => intro pre bo b h hf; refine ⟨bo, b, rfl, ?_⟩; have : l = pre := by simpa using h
           rw [this] at hf ⊢; exact hf
  | cons el rest ih =>
    intro pre bo b h hf
    have hel : l[pre.length]? = some el := by rw [h]; simp
    have hl : l = (pre ++ [el]) ++ rest := by rw [h]; simp
    have hlen : (pre ++ [el]).length = pre.length + 1 := by simp
    simp only [scan]
    rw [canMove_eq l _ el hel]
    simp only [bind, Except.bind]
    rw [← hlen]
    cases hm : mobAt l pre.length with
    | false =>
      simp only [Bool.false_eq_true, if_false]
      apply ih _ _ _ hl
      rw [hlen]
      rcases hf with ⟨h1, h2, h3⟩ | ⟨j, e, hj, h1, h2, h3, h4, h5⟩
      · left
        refine ⟨h1, h2, ?_⟩
        intro i hi
        by_cases hip : i = pre.length
        · rw [hip]; exact hm
        · exact h3 i (by omega)
      · right
        refine ⟨j, e, by omega, h1, h2, h3, h4, ?_⟩
        intro i e' hi he' hm'
        by_cases hip : i = pre.length
        · rw [hip, hm] at hm'; cases hm'
        · exact h5 i e' (by omega) he' hm'
    | true =>
      simp only [if_true]
      by_cases hgt : (el.orig : Int) > bo
      · rw [if_pos hgt]
        apply ih _ _ _ hl
        rw [hlen]
        right
        refine ⟨pre.length, el, by omega, rfl, hel, rfl, hm, ?_⟩
        intro i e' hi he' hm'
        by_cases hip : i = pre.length
        · rw [hip, hel] at he'; injection he' with he'; rw [he']; omega
        · rcases hf with ⟨h1, h2, h3⟩ | ⟨j, e, hj, h1, h2, h3, h4, h5⟩
          · rw [h3 i (by omega)] at hm'; cases hm'
          · have := h5 i e' (by omega) he' hm'; omega
      · rw [if_neg hgt]
        apply ih _ _ _ hl
        rw [hlen]
        rcases hf with ⟨h1, h2, h3⟩ | ⟨j, e, hj, h1, h2, h3, h4, h5⟩
        · omega
        · right
          refine ⟨j, e, by omega, h1, h2, h3, h4, ?_⟩
          intro i e' hi he' hm'
          by_cases hip : i = pre.length
          · rw [hip, hel] at he'; injection he' with he'; rw [← he']; omega
          · exact h5 i e' (by omega) he' hm'

theorem next_stuck (ip : List α) (l : List PermElem) (h : Stuck l) :
    (PermGen.mk ip l).next = .ok (PermGen.mk ip l, false) := by
  obtain ⟨bo, b, hs, hf⟩ := scan_spec l l [] (-1) (-1) rfl (Or.inl ⟨rfl, rfl, by intro i hi; exact absurd hi (Nat.not_lt_zero i)⟩)
  unfold PermGen.next
  simp only [List.length_nil] at hs
  simp only [hs, bind, Except.bind]
  rcases hf with ⟨_, hb, _⟩ | ⟨j, el, _, _, hel, _, hm, _⟩
  · subst hb; rfl
  · exact absurd (mobAt_mob hel hm) (h el)

theorem swap_zip {β : Type} (a : List β) (x y : β) (b : List β) :
    Go.swap (a ++ x :: y :: b) (a.length : Int) ((a.length : Int) + 1) = .ok (a ++ y :: x :: b) ∧
    Go.swap (a ++ x :: y :: b) ((a.length : Int) + 1) (((a.length : Int) + 1) - 1) = .ok (a ++ y :: x :: b) := by
  have hi : a.length < (a ++ x :: y :: b).length := by simp
  have hj : a.length + 1 < (a ++ x :: y :: b).length := by simp
  have e1 : ((a.length : Int) + 1) = ((a.length + 1 : Nat) : Int) := by omega
  have e2 : (((a.length + 1 : Nat) : Int) - 1) = (a.length : Int) := by omega
  have gi : (a ++ x :: y :: b)[a.length] = x := by simp
  have gj : (a ++ x :: y :: b)[a.length + 1] = y := by
    rw [List.getElem_append_right (by omega)]; simp
  constructor
  · rw [e1, Go.swap_nat _ _ _ hi hj, gi, gj]
    congr 1
    rw [List.set_append_right _ _ (Nat.le_refl _), Nat.sub_self, List.set_append_right _ _ (by omega)]
    simp
  · rw [e1, e2, Go.swap_nat _ _ _ hj hi, gi, gj]
    congr 1
    rw [List.set_append_right _ _ (by omega), List.set_append_right _ _ (by omega)]
    simp

theorem orig_inj {l : List PermElem} (hd : (l.map (·.orig)).Nodup) {i j : Nat} {x y : PermElem} (hi : l[i]? = some x)
    (hj : l[j]? = some y) (h : x.orig = y.orig) : i = j := by
  obtain ⟨h1, e1⟩ := List.getElem?_eq_some_iff.1 hi
  obtain ⟨h2, e2⟩ := List.getElem?_eq_some_iff.1 hj
  have hp := List.pairwise_iff_getElem.1 hd
  rcases Nat.lt_trichotomy i j with hlt | heq | hlt
  · have := hp i j (by simpa using h1) (by simpa using h2) hlt
    simp [e1, e2, h] at this
  · exact heq
  · have := hp j i (by simpa using h2) (by simpa using h1) hlt
    simp [e1, e2, h] at this

theorem next_step (ipa ipb : List α) (ipx ipy : α) (l l' a b : List PermElem) (x y : PermElem) (hs : Step l l' a x y b)
    (hd : (l.map (·.orig)).Nodup) (hlen : ipa.length = a.length) :
    (PermGen.mk (ipa ++ ipx :: ipy :: ipb) l).next = .ok (PermGen.mk (ipa ++ ipy :: ipx :: ipb) l', true) := by
  obtain ⟨hl, hcase⟩ := hs
  obtain ⟨bo, bi, hsc, hf⟩ := scan_spec l l [] (-1) (-1) rfl (Or.inl ⟨rfl, rfl, by intro i hi; exact absurd hi (Nat.not_lt_zero i)⟩)
  unfold PermGen.next
  simp only [List.length_nil] at hsc
  simp only [hsc, bind, Except.bind]
  have hx : l[a.length]? = some x := by rw [hl]; simp
  have hy : l[a.length + 1]? = some y := by rw [hl, List.getElem?_append_right (by omega)]; simp
  have hxl : a.length < l.length := (List.getElem?_eq_some_iff.1 hx).1
  have hyl : a.length + 1 < l.length := (List.getElem?_eq_some_iff.1 hy).1
  obtain ⟨sw1, sw2⟩ := swap_zip a x y b
  obtain ⟨sv1, sv2⟩ := swap_zip ipa ipx ipy ipb
  rw [hlen] at sv1 sv2
  rcases hcase with ⟨hr, hle, hmax, rfl⟩ | ⟨hr, hle, hmax, rfl⟩
  · have hm : mobAt l a.length = true := by rw [hl]; exact mobAt_right a b x y hr hle
    rcases hf with ⟨_, _, hno⟩ | ⟨j, el, hj, hb, hel, hbo, hmj, hmx⟩
    · rw [hno _ hxl] at hm; cases hm
    · have h1 := hmax el (mobAt_mob hel hmj)
      have h2 := hmx _ x hxl hx hm
      have hij := orig_inj hd hel hx (by omega)
      subst hij
      rw [hx] at hel; injection hel with hel; subst hel
      subst hb hbo
      rw [if_neg (by omega), Go.idx_nat l _ hxl, (List.getElem?_eq_some_iff.1 hx).2]
      simp only [hr, if_true]
      rw [hl, sw1, sv1]
      rfl
  · have hm : mobAt l (a.length + 1) = true := by rw [hl]; exact mobAt_left a b x y hr hle
    rcases hf with ⟨_, _, hno⟩ | ⟨j, el, hj, hb, hel, hbo, hmj, hmx⟩
    · rw [hno _ hyl] at hm; cases hm
    · have h1 := hmax el (mobAt_mob hel hmj)
      have h2 := hmx _ y hyl hy hm
      have hij := orig_inj hd hel hy (by omega)
      subst hij
      rw [hy] at hel; injection hel with hel; subst hel
      subst hb hbo
      have e1 : ((a.length + 1 : Nat) : Int) = (a.length : Int) + 1 := by omega
      rw [if_neg (by omega), Go.idx_nat l _ hyl, (List.getElem?_eq_some_iff.1 hy).2]
      simp only [hr, Bool.false_eq_true, if_false]
      rw [e1, hl, sw2, sv2]
      rfl

/-! ### adding the largest element -/

/-- Insert at position `p`. -/
def ins {β : Type} (p : Nat) (x : β) (l : List β) : List β := l.take p ++ x :: l.drop p

def L (m : Nat) : PermElem := { right := false, orig := m }
def R (m : Nat) : PermElem := { right := true, orig := m }

theorem map_flip_small {m : Nat} {l : List PermElem} (h : ∀ el ∈ l, el.orig ≤ m) : flip m l = l := by
  rw [flip_eq]
  conv => rhs; rw [← List.map_id l]
  apply List.map_congr_left
  intro el hel
  unfold flipE
  rw [if_neg (by have := h el hel; omega)]; rfl

theorem mob_mem {l : List PermElem} {el : PermElem} (h : Mob l el) : el ∈ l := by
  rcases h with ⟨a, y, b, rfl, _⟩ | ⟨a, y, b, rfl, _⟩ <;> simp

/-- The largest element moves left through the others. -/
theorem step_left {m p : Nat} {e : List PermElem} (hb : ∀ el ∈ e, el.orig < m) (hp : p < e.length) :
    Next (ins (p + 1) (L m) e) (ins p (L m) e) := by
  have hsp : ins (p + 1) (L m) e = e.take p ++ e[p] :: (L m) :: e.drop (p + 1) := by
    unfold ins; rw [List.take_succ_eq_append_getElem hp, List.append_assoc]; rfl
  have hsp' : ins p (L m) e = e.take p ++ (L m) :: e[p] :: e.drop (p + 1) := by
    unfold ins; rw [List.drop_eq_getElem_cons hp]
  have hall : ∀ el ∈ ins (p + 1) (L m) e, el.orig ≤ m := by
    intro el hel
    simp only [ins, List.mem_append, List.mem_cons] at hel
    rcases hel with h | rfl | h
    · exact Nat.le_of_lt (hb el (List.mem_of_mem_take h))
    · exact Nat.le_refl _
    · exact Nat.le_of_lt (hb el (List.mem_of_mem_drop h))
  refine ⟨e.take p, e[p], L m, e.drop (p + 1), hsp, Or.inr ⟨rfl, Nat.le_of_lt (hb _ (List.getElem_mem hp)), ?_, ?_⟩⟩
  · intro el hel; exact hall el (mob_mem hel)
  · rw [← hsp']
    symm; apply map_flip_small
    intro el hel
    apply hall
    rw [hsp'] at hel; rw [hsp]
    simp only [List.mem_append, List.mem_cons] at hel ⊢
    grind

theorem step_right {m p : Nat} {e : List PermElem} (hb : ∀ el ∈ e, el.orig < m) (hp : p < e.length) :
    Next (ins p (R m) e) (ins (p + 1) (R m) e) := by
  have hsp : ins (p + 1) (R m) e = e.take p ++ e[p] :: (R m) :: e.drop (p + 1) := by
    unfold ins; rw [List.take_succ_eq_append_getElem hp, List.append_assoc]; rfl
  have hsp' : ins p (R m) e = e.take p ++ (R m) :: e[p] :: e.drop (p + 1) := by
    unfold ins; rw [List.drop_eq_getElem_cons hp]
  have hall : ∀ el ∈ ins p (R m) e, el.orig ≤ m := by
    intro el hel
    simp only [ins, List.mem_append, List.mem_cons] at hel
    rcases hel with h | rfl | h
    · exact Nat.le_of_lt (hb el (List.mem_of_mem_take h))
    · exact Nat.le_refl _
    · exact Nat.le_of_lt (hb el (List.mem_of_mem_drop h))
  refine ⟨e.take p, R m, e[p], e.drop (p + 1), hsp', Or.inl ⟨rfl, Nat.le_of_lt (hb _ (List.getElem_mem hp)), ?_, ?_⟩⟩
  · intro el hel; exact hall el (mob_mem hel)
  · rw [← hsp]
    symm; apply map_flip_small
    intro el hel
    apply hall
    rw [hsp] at hel; rw [hsp']
    simp only [List.mem_append, List.mem_cons] at hel ⊢
    grind

theorem mob_cons_L {m : Nat} {e : List PermElem} (hb : ∀ el ∈ e, el.orig < m) {el : PermElem} (h : Mob (L m :: e) el) : Mob e el := by
  rcases h with ⟨a, y, b, h, hr, ho⟩ | ⟨a, y, b, h, hr, ho⟩
  · cases a with
    | nil => simp at h; rw [← h.1] at hr; cases hr
    | cons z a => simp at h; exact Or.inl ⟨a, y, b, h.2, hr, ho⟩
  · cases a with
    | nil =>
      simp at h
      have h1 : el ∈ e := by rw [h.2]; simp
      have h2 := hb el h1
      rw [← h.1] at ho
      simp only [L] at ho; omega
    | cons z a => simp at h; exact Or.inr ⟨a, y, b, h.2, hr, ho⟩

theorem mob_append_R {m : Nat} {e : List PermElem} (hb : ∀ el ∈ e, el.orig < m) {el : PermElem} (h : Mob (e ++ [R m]) el) : Mob e el := by
  rcases h with ⟨a, y, b, h, hr, ho⟩ | ⟨a, y, b, h, hr, ho⟩
  · rcases List.eq_nil_or_concat b with rfl | ⟨b', z, rfl⟩
    · have h' : e ++ [R m] = (a ++ [el]) ++ [y] := by rw [h]; simp
      obtain ⟨h1, h2⟩ := List.append_inj' h' rfl
      have h3 : el ∈ e := by rw [h1]; simp
      have h4 := hb el h3
      simp at h2
      rw [← h2] at ho; simp only [R] at ho; omega
    · have h' : e ++ [R m] = (a ++ el :: y :: b') ++ [z] := by rw [h]; simp
      obtain ⟨h1, h2⟩ := List.append_inj' h' rfl
      exact Or.inl ⟨a, y, b', h1, hr, ho⟩
  · rcases List.eq_nil_or_concat b with rfl | ⟨b', z, rfl⟩
    · have h' : e ++ [R m] = (a ++ [y]) ++ [el] := by rw [h]; simp
      obtain ⟨h1, h2⟩ := List.append_inj' h' rfl
      simp at h2
      rw [← h2] at hr; cases hr
    · have h' : e ++ [R m] = (a ++ y :: el :: b') ++ [z] := by rw [h]; simp
      obtain ⟨h1, h2⟩ := List.append_inj' h' rfl
      exact Or.inr ⟨a, y, b', h1, hr, ho⟩

theorem turn_L {m : Nat} {e e2 : List PermElem} (hb : ∀ el ∈ e, el.orig < m) (h : Next e e2) : Next (ins 0 (L m) e) (ins 0 (R m) e2) := by
  obtain ⟨a, x, y, b, rfl, hc⟩ := h
  have hfl : ∀ z : PermElem, z.orig < m → flipE z.orig (L m) = R m := by
    intro z hz
    unfold flipE L R
    simp only
    rw [if_pos (by omega)]; rfl
  refine ⟨L m :: a, x, y, b, by simp [ins], ?_⟩
  rcases hc with ⟨h1, h2, h3, rfl⟩ | ⟨h1, h2, h3, rfl⟩
  · left
    refine ⟨h1, h2, ?_, ?_⟩
    · intro el hel; exact h3 el (mob_cons_L hb (by simpa [ins] using hel))
    · have := hfl x (hb x (by simp))
      simp [ins, flip_eq, this]
  · right
    refine ⟨h1, h2, ?_, ?_⟩
    · intro el hel; exact h3 el (mob_cons_L hb (by simpa [ins] using hel))
    · have := hfl y (hb y (by simp))
      simp [ins, flip_eq, this]

theorem ins_end {β : Type} (x : β) (e : List β) : ins e.length x e = e ++ [x] := by simp [ins]

theorem turn_R {m : Nat} {e e2 : List PermElem} (hb : ∀ el ∈ e, el.orig < m) (h : Next e e2) :
    Next (ins e.length (R m) e) (ins e2.length (L m) e2) := by
  obtain ⟨a, x, y, b, rfl, hc⟩ := h
  have hfl : ∀ z : PermElem, z.orig < m → flipE z.orig (R m) = L m := by
    intro z hz
    unfold flipE L R
    simp only
    rw [if_pos (by omega)]; rfl
  rw [ins_end, ins_end]
  refine ⟨a, x, y, b ++ [R m], by simp, ?_⟩
  rcases hc with ⟨h1, h2, h3, rfl⟩ | ⟨h1, h2, h3, rfl⟩
  · left
    refine ⟨h1, h2, ?_, ?_⟩
    · intro el hel; exact h3 el (mob_append_R hb hel)
    · have := hfl x (hb x (by simp))
      simp [flip_eq, this]
  · right
    refine ⟨h1, h2, ?_, ?_⟩
    · intro el hel; exact h3 el (mob_append_R hb hel)
    · have := hfl y (hb y (by simp))
      simp [flip_eq, this]

theorem stuck_L {m : Nat} {e : List PermElem} (hb : ∀ el ∈ e, el.orig < m) (h : Stuck e) : Stuck (ins 0 (L m) e) := by
  intro el hel; exact h el (mob_cons_L hb (by simpa [ins] using hel))

theorem stuck_R {m : Nat} {e : List PermElem} (hb : ∀ el ∈ e, el.orig < m) (h : Stuck e) : Stuck (ins e.length (R m) e) := by
  intro el hel; rw [ins_end] at hel; exact h el (mob_append_R hb hel)

/-! ### complete runs -/

/-- A list of states in which each follows from the previous one and the last one is final. -/
def IsRun : List (List PermElem) → Prop
  | [] => False
  | [e] => Stuck e
  | e :: e2 :: r => Next e e2 ∧ IsRun (e2 :: r)

def sweepL (m : Nat) (e : List PermElem) : Nat → List (List PermElem)
  | 0 => [ins 0 (L m) e]
  | p + 1 => ins (p + 1) (L m) e :: sweepL m e p

def sweepR (m : Nat) (e : List PermElem) : Nat → List (List PermElem)
  | 0 => [ins e.length (R m) e]
  | p + 1 => ins (e.length - (p + 1)) (R m) e :: sweepR m e p

def expand (m : Nat) : Bool → List (List PermElem) → List (List PermElem)
  | _, [] => []
  | false, e :: r => sweepL m e e.length ++ expand m true r
  | true, e :: r => sweepR m e e.length ++ expand m false r

theorem sweepL_head (m : Nat) (e : List PermElem) (p : Nat) : ∃ r, sweepL m e p = ins p (L m) e :: r := by
  cases p <;> exact ⟨_, rfl⟩

theorem sweepR_head (m : Nat) (e : List PermElem) (p : Nat) : ∃ r, sweepR m e p = ins (e.length - p) (R m) e :: r := by
  cases p <;> exact ⟨_, rfl⟩

theorem run_sweepL {m : Nat} {e : List PermElem} (hb : ∀ el ∈ e, el.orig < m) (rest : List (List PermElem))
    (h : IsRun (ins 0 (L m) e :: rest)) : ∀ p ≤ e.length, IsRun (sweepL m e p ++ rest) := by
  intro p
  induction p with
  | zero => intro _; exact h
  | succ p ih =>
    intro hp
    obtain ⟨r, hr⟩ := sweepL_head m e p
    have := ih (by omega)
    simp only [sweepL, List.cons_append]
    rw [hr] at this ⊢
    exact ⟨step_left hb (by omega), this⟩

theorem run_sweepR {m : Nat} {e : List PermElem} (hb : ∀ el ∈ e, el.orig < m) (rest : List (List PermElem))
    (h : IsRun (ins e.length (R m) e :: rest)) : ∀ p ≤ e.length, IsRun (sweepR m e p ++ rest) := by
  intro p
  induction p with
  | zero => intro _; exact h
  | succ p ih =>
    intro hp
    obtain ⟨r, hr⟩ := sweepR_head m e p
    have := ih (by omega)
    simp only [sweepR, List.cons_append]
    rw [hr] at this ⊢
    have e1 : e.length - p = e.length - (p + 1) + 1 := by omega
    refine ⟨?_, this⟩
    rw [e1]
    exact step_right hb (by omega)

theorem run_expand {m : Nat} : ∀ (r : List (List PermElem)) (e : List PermElem) (d : Bool),
    (∀ s ∈ e :: r, ∀ el ∈ s, el.orig < m) → IsRun (e :: r) → IsRun (expand m d (e :: r)) := by
  intro r
  induction r with
  | nil =>
    intro e d hb h
    have hb' := hb e (by simp)
    cases d with
    | false => simp only [expand]; exact run_sweepL hb' [] (stuck_L hb' h) _ (Nat.le_refl _)
    | true => simp only [expand]; exact run_sweepR hb' [] (stuck_R hb' h) _ (Nat.le_refl _)
  | cons e2 r ih =>
    intro e d hb h
    have hb' := hb e (by simp)
    obtain ⟨hn, h2⟩ := h
    have ih' := fun d => ih e2 d (fun s hs => hb s (List.mem_cons_of_mem _ hs)) h2
    cases d with
    | false =>
      have := ih' true
      rw [expand]
      apply run_sweepL hb' _ _ _ (Nat.le_refl _)
      simp only [expand] at this ⊢
      obtain ⟨q, hq⟩ := sweepR_head m e2 e2.length
      rw [hq] at this ⊢
      simp only [Nat.sub_self, List.cons_append] at this ⊢
      exact ⟨turn_L hb' hn, this⟩
    | true =>
      have := ih' false
      rw [expand]
      apply run_sweepR hb' _ _ _ (Nat.le_refl _)
      simp only [expand] at this ⊢
      obtain ⟨q, hq⟩ := sweepL_head m e2 e2.length
      rw [hq] at this ⊢
      simp only [List.cons_append] at this ⊢
      exact ⟨turn_R hb' hn, this⟩

/-- The states of the generator for `n` elements. -/
def states : Nat → List (List PermElem)
  | 0 => [[]]
  | n + 1 => expand n false (states n)

def origs (e : List PermElem) : List Nat := e.map (·.orig)

theorem origs_ins (p : Nat) (x : PermElem) (e : List PermElem) : origs (ins p x e) = ins p x.orig (origs e) := by
  simp [origs, ins, List.map_take, List.map_drop]

theorem mem_sweepL {m : Nat} {e s : List PermElem} {p : Nat} : s ∈ sweepL m e p ↔ ∃ q ≤ p, s = ins q (L m) e := by
  induction p with
  | zero => simp [sweepL]
  | succ p ih =>
    simp only [sweepL, List.mem_cons, ih]
    constructor
    · rintro (rfl | ⟨q, hq, rfl⟩)
      · exact ⟨p + 1, Nat.le_refl _, rfl⟩
      · exact ⟨q, by omega, rfl⟩
    · rintro ⟨q, hq, rfl⟩
      by_cases h : q = p + 1
      · left; rw [h]
      · right; exact ⟨q, by omega, rfl⟩

theorem mem_sweepR {m : Nat} {e s : List PermElem} {p : Nat} (hp : p ≤ e.length) :
    s ∈ sweepR m e p ↔ ∃ q, e.length - p ≤ q ∧ q ≤ e.length ∧ s = ins q (R m) e := by
  induction p with
  | zero =>
    simp only [sweepR, List.mem_singleton]
    constructor
    · rintro rfl; exact ⟨e.length, by omega, by omega, rfl⟩
    · rintro ⟨q, h1, h2, rfl⟩; have : q = e.length := by omega
      rw [this]
  | succ p ih =>
    simp only [sweepR, List.mem_cons, ih (by omega)]
    constructor
    · rintro (rfl | ⟨q, hq, hq', rfl⟩)
      · exact ⟨_, Nat.le_refl _, by omega, rfl⟩
      · exact ⟨q, by omega, hq', rfl⟩
    · rintro ⟨q, hq, hq', rfl⟩
      by_cases h : q = e.length - (p + 1)
      · left; rw [h]
      · right; exact ⟨q, by omega, hq', rfl⟩

theorem mem_expand {m : Nat} {s : List PermElem} : ∀ (l : List (List PermElem)) (d : Bool),
    s ∈ expand m d l → ∃ e ∈ l, ∃ q ≤ e.length, ∃ r, s = ins q { right := r, orig := m } e := by
  intro l
  induction l with
  | nil => intro d h; simp [expand] at h
  | cons e l ih =>
    intro d h
    cases d with
    | false =>
      simp only [expand, List.mem_append, mem_sweepL] at h
      rcases h with ⟨q, hq, rfl⟩ | h
      · exact ⟨e, by simp, q, hq, false, rfl⟩
      · obtain ⟨e', he', h'⟩ := ih _ h; exact ⟨e', by simp [he'], h'⟩
    | true =>
      simp only [expand, List.mem_append, mem_sweepR (Nat.le_refl _)] at h
      rcases h with ⟨q, _, hq, rfl⟩ | h
      · exact ⟨e, by simp, q, hq, true, rfl⟩
      · obtain ⟨e', he', h'⟩ := ih _ h; exact ⟨e', by simp [he'], h'⟩

theorem expand_covers {m : Nat} : ∀ (l : List (List PermElem)) (d : Bool) (e : List PermElem) (q : Nat), e ∈ l → q ≤ e.length →
    ∃ r, ins q { right := r, orig := m } e ∈ expand m d l := by
  intro l
  induction l with
  | nil => intro d e q h; simp at h
  | cons e0 l ih =>
    intro d e q h hq
    simp only [List.mem_cons] at h
    rcases h with rfl | h
    · cases d with
      | false =>
        refine ⟨false, ?_⟩
        simp only [expand, List.mem_append, mem_sweepL]
        exact Or.inl ⟨q, hq, rfl⟩
      | true =>
        refine ⟨true, ?_⟩
        simp only [expand, List.mem_append, mem_sweepR (Nat.le_refl _)]
        exact Or.inl ⟨q, by omega, hq, rfl⟩
    · cases d with
      | false =>
        obtain ⟨r, hr⟩ := ih true e q h hq
        exact ⟨r, by simp only [expand, List.mem_append]; exact Or.inr hr⟩
      | true =>
        obtain ⟨r, hr⟩ := ih false e q h hq
        exact ⟨r, by simp only [expand, List.mem_append]; exact Or.inr hr⟩

theorem sweepL_length (m : Nat) (e : List PermElem) (p : Nat) : (sweepL m e p).length = p + 1 := by
  induction p with
  | zero => rfl
  | succ p ih => simp [sweepL, ih]

theorem sweepR_length (m : Nat) (e : List PermElem) (p : Nat) : (sweepR m e p).length = p + 1 := by
  induction p with
  | zero => rfl
  | succ p ih => simp [sweepR, ih]

theorem expand_length {m n : Nat} : ∀ (l : List (List PermElem)) (d : Bool), (∀ e ∈ l, e.length = n) →
    (expand m d l).length = (n + 1) * l.length := by
  intro l
  induction l with
  | nil => intro d _; simp [expand]
  | cons e l ih =>
    intro d h
    have he := h e (by simp)
    have := fun d => ih d (fun e he => h e (by simp [he]))
    cases d <;> simp only [expand, List.length_append, sweepL_length, sweepR_length, this, he, List.length_cons, Nat.mul_add] <;> omega

theorem perm_ins {β : Type} (p : Nat) (x : β) (l : List β) : (ins p x l).Perm (x :: l) := by
  unfold ins
  have := List.perm_middle (a := x) (l₁ := l.take p) (l₂ := l.drop p)
  rw [List.take_append_drop] at this
  exact this

theorem length_ins {β : Type} (p : Nat) (x : β) (l : List β) : (ins p x l).length = l.length + 1 := by
  have := (perm_ins p x l).length_eq; simpa using this

/-- Every state holds a permutation of `0..n-1`. -/
theorem states_perm (n : Nat) : ∀ e ∈ states n, (origs e).Perm (List.range n) := by
  induction n with
  | zero => intro e he; simp [states] at he; subst he; simp [origs]
  | succ n ih =>
    intro s hs
    obtain ⟨e, he, q, hq, r, rfl⟩ := mem_expand _ _ hs
    rw [origs_ins]
    refine (perm_ins q n (origs e)).trans ?_
    rw [List.range_succ]
    refine List.Perm.trans ?_ List.perm_append_comm
    simpa using (ih e he)

theorem states_length_eq (n : Nat) (e : List PermElem) (he : e ∈ states n) : e.length = n := by
  have := (states_perm n e he).length_eq; simpa [origs] using this

theorem states_lt (n : Nat) (e : List PermElem) (he : e ∈ states n) (el : PermElem) (hel : el ∈ e) : el.orig < n := by
  have h1 : el.orig ∈ origs e := List.mem_map.2 ⟨el, hel, rfl⟩
  have := (states_perm n e he).mem_iff.1 h1
  simpa using this

theorem states_count (n : Nat) : (states n).length = fact n := by
  induction n with
  | zero => rfl
  | succ n ih =>
    rw [states, expand_length _ _ (fun e he => states_length_eq n e he), ih]; rfl

theorem states_head (n : Nat) : ∃ r, states n = (List.range n).map L :: r := by
  induction n with
  | zero => exact ⟨[], rfl⟩
  | succ n ih =>
    obtain ⟨r, hr⟩ := ih
    obtain ⟨q, hq⟩ := sweepL_head n ((List.range n).map L) ((List.range n).map L).length
    refine ⟨q ++ expand n true r, ?_⟩
    rw [states, hr, expand, hq, ins_end, List.range_succ]
    simp

theorem states_run (n : Nat) : IsRun (states n) := by
  induction n with
  | zero =>
    simp only [states, IsRun]
    intro el h
    rcases h with ⟨a, y, b, h, _⟩ | ⟨a, y, b, h, _⟩ <;> simp at h
  | succ n ih =>
    obtain ⟨r, hr⟩ := states_head n
    rw [states]
    have hb := states_lt n
    rw [hr] at ih hb ⊢
    exact run_expand r _ false hb ih

theorem take_of_ins {p : Nat} {m : Nat} {l : List Nat} (h : m ∉ l) (hp : p ≤ l.length) : (ins p m l).idxOf m = p := by
  unfold ins
  rw [List.idxOf_append, if_neg (fun hm => h (List.mem_of_mem_take hm))]
  simp; omega

theorem erase_ins {p : Nat} {m : Nat} {l : List Nat} (h : m ∉ l) : (ins p m l).filter (· ≠ m) = l := by
  unfold ins
  rw [List.filter_append, List.filter_cons_of_neg (by simp), ← List.filter_append, List.take_append_drop, List.filter_eq_self]
  intro a ha
  have : a ≠ m := by rintro rfl; exact h ha
  simpa using this

theorem sweepL_nodup {m : Nat} {e : List PermElem} (h : m ∉ origs e) : ∀ p ≤ e.length, ((sweepL m e p).map origs).Nodup := by
  intro p
  induction p with
  | zero => intro _; simp [sweepL]
  | succ p ih =>
    intro hp
    simp only [sweepL, List.map_cons, List.nodup_cons]
    refine ⟨?_, ih (by omega)⟩
    intro hm
    obtain ⟨s, hs, hse⟩ := List.mem_map.1 hm
    obtain ⟨q, hq, rfl⟩ := mem_sweepL.1 hs
    rw [origs_ins, origs_ins] at hse
    have hl : (origs e).length = e.length := by simp [origs]
    have h1 := take_of_ins (p := q) h (by omega)
    have h2 := take_of_ins (p := p + 1) h (by omega)
    simp only [L] at hse
    rw [hse, h2] at h1
    omega

theorem sweepR_nodup {m : Nat} {e : List PermElem} (h : m ∉ origs e) : ∀ p ≤ e.length, ((sweepR m e p).map origs).Nodup := by
  intro p
  induction p with
  | zero => intro _; simp [sweepR]
  | succ p ih =>
    intro hp
    simp only [sweepR, List.map_cons, List.nodup_cons]
    refine ⟨?_, ih (by omega)⟩
    intro hm
    obtain ⟨s, hs, hse⟩ := List.mem_map.1 hm
    obtain ⟨q, hq, hq', rfl⟩ := (mem_sweepR (by omega)).1 hs
    rw [origs_ins, origs_ins] at hse
    have hl : (origs e).length = e.length := by simp [origs]
    have h1 := take_of_ins (p := q) h (by omega)
    have h2 := take_of_ins (p := e.length - (p + 1)) h (by omega)
    simp only [R] at hse
    rw [hse, h2] at h1
    omega

theorem expand_nodup {m : Nat} : ∀ (l : List (List PermElem)) (d : Bool), (∀ e ∈ l, m ∉ origs e) → (l.map origs).Nodup →
    ((expand m d l).map origs).Nodup := by
  intro l
  induction l with
  | nil => intro d _ _; simp [expand]
  | cons e l ih =>
    intro d hm hd
    simp only [List.map_cons, List.nodup_cons] at hd
    have ih' := fun d => ih d (fun e he => hm e (by simp [he])) hd.2
    have hme := hm e (by simp)
    have cross : ∀ (d : Bool) (s s' : List PermElem) (q : Nat) (r : Bool), s = ins q { right := r, orig := m } e → s' ∈ expand m d l →
        origs s ≠ origs s' := by
      rintro d s s' q r rfl hs' heq
      obtain ⟨e', he', q', hq', r', rfl⟩ := mem_expand _ _ hs'
      rw [origs_ins, origs_ins] at heq
      have h1 := erase_ins (p := q) hme
      have h2 := erase_ins (p := q') (hm e' (by simp [he']))
      simp only at heq
      rw [heq, h2] at h1
      exact hd.1 (List.mem_map.2 ⟨e', he', h1⟩)
    cases d with
    | false =>
      simp only [expand, List.map_append]
      rw [List.nodup_append]
      refine ⟨sweepL_nodup hme _ (Nat.le_refl _), ih' true, ?_⟩
      intro a ha b hb
      obtain ⟨s, hs, rfl⟩ := List.mem_map.1 ha
      obtain ⟨s', hs', rfl⟩ := List.mem_map.1 hb
      obtain ⟨q, _, rfl⟩ := mem_sweepL.1 hs
      exact cross _ _ _ q false rfl hs'
    | true =>
      simp only [expand, List.map_append]
      rw [List.nodup_append]
      refine ⟨sweepR_nodup hme _ (Nat.le_refl _), ih' false, ?_⟩
      intro a ha b hb
      obtain ⟨s, hs, rfl⟩ := List.mem_map.1 ha
      obtain ⟨s', hs', rfl⟩ := List.mem_map.1 hb
      obtain ⟨q, _, _, rfl⟩ := (mem_sweepR (Nat.le_refl _)).1 hs
      exact cross _ _ _ q true rfl hs'

theorem states_nodup (n : Nat) : ((states n).map origs).Nodup := by
  induction n with
  | zero => simp [states]
  | succ n ih =>
    rw [states]
    apply expand_nodup _ _ _ ih
    intro e he hm
    have := (states_perm n e he).mem_iff.1 hm
    simp at this

theorem states_cover (n : Nat) : ∀ π : List Nat, π.Perm (List.range n) → π ∈ (states n).map origs := by
  induction n with
  | zero => intro π h; simp at h; subst h; simp [states, origs]
  | succ n ih =>
    intro π h
    have hn : n ∈ π := h.mem_iff.2 (by simp)
    obtain ⟨a, b, rfl⟩ := List.append_of_mem hn
    have h1 : (a ++ b).Perm (List.range n) := by
      have h2 : (n :: (a ++ b)).Perm (n :: List.range n) := by
        refine List.perm_middle.symm.trans (h.trans ?_)
        rw [List.range_succ]; exact List.perm_append_comm
      exact h2.cons_inv
    obtain ⟨e, he, heq⟩ := List.mem_map.1 (ih _ h1)
    have hlen : e.length = a.length + b.length := by
      have := congrArg List.length heq; simpa [origs] using this
    obtain ⟨r, hr⟩ := expand_covers (m := n) (states n) false e a.length he (by omega)
    refine List.mem_map.2 ⟨_, hr, ?_⟩
    rw [origs_ins, heq]
    simp [ins]

/-! ### linking runs to the generator -/

theorem next_origs {l l' : List PermElem} (h : Next l l') : AdjSwap (origs l) (origs l') := by
  obtain ⟨a, x, y, b, rfl, hc⟩ := h
  refine ⟨origs a, x.orig, y.orig, origs b, by simp [origs], ?_⟩
  rcases hc with ⟨_, _, _, rfl⟩ | ⟨_, _, _, rfl⟩ <;> simp [origs, flip_eq, Function.comp_def]

theorem arrange_map (l : List α) : ∀ (π : List Nat), (∀ i ∈ π, i < l.length) → (arrange l π).map some = π.map (fun i => l[i]?) := by
  intro π
  induction π with
  | nil => intro _; rfl
  | cons i π ih =>
    intro h
    have hi := h i (by simp)
    have := ih (fun j hj => h j (by simp [hj]))
    simp only [arrange] at this ⊢
    simp only [List.filterMap_cons, List.getElem?_eq_getElem hi, List.map_cons, this]

theorem arrange_append (l : List α) (a b : List Nat) : arrange l (a ++ b) = arrange l a ++ arrange l b := by simp [arrange]

theorem arrange_length (l : List α) (π : List Nat) (h : ∀ i ∈ π, i < l.length) : (arrange l π).length = π.length := by
  have := congrArg List.length (arrange_map l π h); simpa using this

theorem arrange_range (l : List α) : arrange l (List.range l.length) = l := by
  have h := arrange_map l (List.range l.length) (by simp)
  have h2 : (List.range l.length).map (fun i => l[i]?) = l.map some := by
    apply List.ext_getElem
    · simp
    · intro i h1 h2; simp at h1; simp [List.getElem?_eq_getElem h1]
  rw [h2] at h
  have := congrArg (List.filterMap id) h
  simpa [Function.comp_def] using this

/-- One `next` of the generator, on the arrangement. -/
theorem gen_next (l : List α) {e e2 : List PermElem} (hn : Next e e2) (hd : (origs e).Nodup) (hb : ∀ el ∈ e, el.orig < l.length) :
    (PermGen.mk (arrange l (origs e)) e).next = .ok (PermGen.mk (arrange l (origs e2)) e2, true) := by
  obtain ⟨a, x, y, b, hs⟩ := hn
  have hs' := hs
  obtain ⟨rfl, hc⟩ := hs
  have hx : x.orig < l.length := hb x (by simp)
  have hy : y.orig < l.length := hb y (by simp)
  have he : arrange l (origs (a ++ x :: y :: b)) = arrange l (origs a) ++ l[x.orig] :: l[y.orig] :: arrange l (origs b) := by
    simp [origs, arrange_append, arrange, List.filterMap_append, List.getElem?_eq_getElem hx, List.getElem?_eq_getElem hy]
  have he2 : arrange l (origs e2) = arrange l (origs a) ++ l[y.orig] :: l[x.orig] :: arrange l (origs b) := by
    have : origs e2 = origs (a ++ y :: x :: b) := by
      rcases hc with ⟨_, _, _, rfl⟩ | ⟨_, _, _, rfl⟩ <;> simp [origs, flip_eq, Function.comp_def]
    rw [this]
    simp [origs, arrange_append, arrange, List.filterMap_append, List.getElem?_eq_getElem hx, List.getElem?_eq_getElem hy]
  rw [he, he2]
  apply next_step _ _ _ _ _ _ _ _ _ _ hs' hd
  rw [arrange_length]
  · simp [origs]
  · intro i hi
    obtain ⟨el, hel, rfl⟩ := List.mem_map.1 hi
    exact hb el (by simp [hel])

theorem gen_stuck (l : List α) {e : List PermElem} (h : Stuck e) :
    (PermGen.mk (arrange l (origs e)) e).next = .ok (PermGen.mk (arrange l (origs e)) e, false) := next_stuck _ _ h

/-- What the calls after the first one return, from any point of a run. -/
theorem calls_run (l : List α) (n : Nat) : ∀ (r : List (List PermElem)) (e : List PermElem),
    IsRun (e :: r) → (∀ s ∈ e :: r, (origs s).Nodup ∧ ∀ el ∈ s, el.orig < l.length) →
    (Closure.mk (PermGen.mk (arrange l (origs e)) e) false).calls n =
      .ok ((r.map (fun s => (true, arrange l (origs s))) ++ List.replicate n (false, arrange l (origs ((e :: r).getLast (by simp))))).take n) := by
  induction n with
  | zero => intro r e _ _; simp [Closure.calls]
  | succ n ih =>
    intro r e h hs
    cases r with
    | nil =>
      have := ih [] e h hs
      simp only [Closure.calls, Closure.call, Bool.false_eq_true, if_false, bind, Except.bind]
      rw [gen_stuck l h]
      simp only [pure, Except.pure]
      rw [this]
      simp [List.replicate_succ]
    | cons e2 r =>
      obtain ⟨hn, h2⟩ := h
      have := ih r e2 h2 (fun s hs' => hs s (by simp [hs']))
      simp only [Closure.calls, Closure.call, Bool.false_eq_true, if_false, bind, Except.bind]
      rw [gen_next l hn (hs e (by simp)).1 (hs e (by simp)).2]
      simp only [pure, Except.pure]
      rw [this]
      simp only [List.map_cons, List.cons_append, List.take_succ_cons, List.getLast_cons_cons]
      congr 2
      rw [List.replicate_succ']
      rw [← List.append_assoc, List.take_append (l₁ := _ ++ _)]
      have hz : n - (List.map (fun s => (true, arrange l (origs s))) r ++ List.replicate n (false, arrange l (origs ((e2 :: r).getLast (by simp))))).length = 0 := by
        simp
      rw [hz]; simp

theorem run_adj : ∀ (r : List (List PermElem)), IsRun r → ∀ (i : Nat) (a b : List PermElem), r[i]? = some a → r[i + 1]? = some b → Next a b := by
  intro r
  induction r with
  | nil => intro h; exact h.elim
  | cons e r ih =>
    intro h i a b ha hb
    cases r with
    | nil => simp at hb
    | cons e2 r =>
      cases i with
      | zero => simp at ha hb; subst ha hb; exact h.1
      | succ i => exact ih h.2 i a b (by simpa using ha) (by simpa using hb)

end Verif.Lists

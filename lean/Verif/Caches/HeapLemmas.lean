import Verif.Caches.Model
/-!
# Lemmas about Go's `container/heap` as used by the LRU cache
-/
set_option linter.unusedSectionVars false
set_option linter.unusedSimpArgs false
namespace Verif.Caches

variable {K V : Type}

/-- Time stamp at a position (0 outside the list). -/
def tm (l : List (Entry K V)) (i : Nat) : Nat :=
  match l[i]? with
  | some e => e.last
  | none => 0

/-- Pure swap of two positions. -/
def sw (l : List α) (i j : Nat) : List α :=
  match l[i]?, l[j]? with
  | some a, some b => (l.set i b).set j a
  | _, _ => l

theorem sw_length (l : List α) (i j : Nat) : (sw l i j).length = l.length := by
  unfold sw; split <;> simp

theorem sw_get (l : List α) (i j p : Nat) (hi : i < l.length) (hj : j < l.length) :
    (sw l i j)[p]? = if p = j then l[i]? else if p = i then l[j]? else l[p]? := by
  have e1 := List.getElem?_eq_getElem hi
  have e2 := List.getElem?_eq_getElem hj
  unfold sw
  rw [e1, e2]
  simp only
  by_cases h1 : p = j
  · subst h1; simp [List.getElem?_set_self, hj]
  · rw [List.getElem?_set_ne (by omega), if_neg h1]
    by_cases h2 : p = i
    · subst h2; simp [List.getElem?_set_self, hi]
    · rw [List.getElem?_set_ne (by omega), if_neg h2]

theorem sw_perm (l : List α) (i j : Nat) (hi : i < l.length) (hj : j < l.length) : (sw l i j).Perm l := by
  have h := Array.swap_perm (xs := l.toArray) (i := i) (j := j) (by simpa using hi) (by simpa using hj)
  have h2 := h.toList
  have e : (l.toArray.swap i j (by simpa using hi) (by simpa using hj)).toList = sw l i j := by
    unfold sw
    rw [List.getElem?_eq_getElem hi, List.getElem?_eq_getElem hj]
    simp
  rw [e] at h2
  simpa using h2

theorem tm_sw (l : List (Entry K V)) (i j p : Nat) (hi : i < l.length) (hj : j < l.length) :
    tm (sw l i j) p = if p = j then tm l i else if p = i then tm l j else tm l p := by
  unfold tm
  rw [sw_get l i j p hi hj]
  by_cases h1 : p = j
  · simp [h1]
  · by_cases h2 : p = i
    · rw [if_neg h1, if_pos h2, if_neg h1, if_pos h2]
    · rw [if_neg h1, if_neg h2, if_neg h1, if_neg h2]

variable [DecidableEq K]

/-- The position index is exact: it maps precisely the keys in the list to their positions. -/
def IndexOK (h : Heap K V) : Prop :=
  ∀ k i, h.index k = some i ↔ ∃ e, h.list[i]? = some e ∧ e.key = k

/-- Heap order on the first `n` positions. -/
def HeapOrd (l : List (Entry K V)) (n : Nat) : Prop :=
  ∀ p, 0 < p → p < n → tm l ((p - 1) / 2) ≤ tm l p

theorem less_ok (h : Heap K V) (i j : Nat) (hi : i < h.list.length) (hj : j < h.list.length) :
    h.less i j = .ok (decide (tm h.list i < tm h.list j)) := by
  unfold Heap.less tm
  rw [Go.idx_nat _ i hi, Go.idx_nat _ j hj, List.getElem?_eq_getElem hi, List.getElem?_eq_getElem hj]
  rfl

theorem index_inj {h : Heap K V} (ok : IndexOK h) {i j : Nat} {a b : Entry K V}
    (ha : h.list[i]? = some a) (hb : h.list[j]? = some b) (hk : a.key = b.key) : i = j := by
  have h1 := (ok a.key i).2 ⟨a, ha, rfl⟩
  have h2 := (ok a.key j).2 ⟨b, hb, hk.symm⟩
  rw [h1] at h2
  injection h2

theorem swap_ok (h : Heap K V) (i j : Nat) (hi : i < h.list.length) (hj : j < h.list.length) (ok : IndexOK h) :
    ∃ h', h.swap (i : Int) (j : Int) = .ok h' ∧ h'.list = sw h.list i j ∧ IndexOK h' := by
  have e1 : h.list[i]? = some h.list[i] := List.getElem?_eq_getElem hi
  have e2 : h.list[j]? = some h.list[j] := List.getElem?_eq_getElem hj
  have hsw : Go.swap h.list (i : Int) (j : Int) = .ok (sw h.list i j) := by
    rw [Go.swap_nat _ i j hi hj]; unfold sw; rw [e1, e2]
  have hi' : i < (sw h.list i j).length := by rw [sw_length]; exact hi
  have hj' : j < (sw h.list i j).length := by rw [sw_length]; exact hj
  have g1 : (sw h.list i j)[i]'hi' = h.list[j] := by
    have := sw_get h.list i j i hi hj
    rw [List.getElem?_eq_getElem hi'] at this
    by_cases hij : i = j
    · subst hij; simp [e1] at this; exact this
    · rw [if_neg hij, if_pos rfl, e2] at this; injection this
  have g2 : (sw h.list i j)[j]'hj' = h.list[i] := by
    have := sw_get h.list i j j hi hj
    rw [List.getElem?_eq_getElem hj', if_pos rfl, e1] at this
    injection this
  refine ⟨{ list := sw h.list i j, index := upd (upd h.index (h.list[j]).key (some i)) (h.list[i]).key (some j) }, ?_, rfl, ?_⟩
  · unfold Heap.swap
    rw [hsw]
    simp only [bind, Except.bind]
    rw [Go.idx_nat _ i hi', Go.idx_nat _ j hj', g1, g2]
    rfl
  · intro k p
    simp only
    rw [sw_get h.list i j p hi hj]
    unfold upd
    by_cases hk1 : k = (h.list[i]).key
    · rw [if_pos hk1]
      constructor
      · intro hp; injection hp with hp
        exact ⟨h.list[i], by rw [if_pos hp.symm, e1], hk1.symm⟩
      · rintro ⟨e, he, hek⟩
        by_cases hpj : p = j
        · rw [hpj]
        · rw [if_neg hpj] at he
          by_cases hpi : p = i
          · rw [if_pos hpi, e2] at he
            injection he with he
            have := index_inj ok e2 e1 (by rw [he, hek, hk1])
            rw [hpi, this]
          · rw [if_neg hpi] at he
            have := index_inj ok he e1 (by rw [hek, hk1])
            exact absurd this hpi
    · rw [if_neg hk1]
      by_cases hk2 : k = (h.list[j]).key
      · rw [if_pos hk2]
        constructor
        · intro hp; injection hp with hp
          have hij : i ≠ j := by
            intro hij; subst hij; exact hk1 hk2
          refine ⟨h.list[j], ?_, hk2.symm⟩
          rw [if_neg (by omega), if_pos hp.symm, e2]
        · rintro ⟨e, he, hek⟩
          by_cases hpj : p = j
          · rw [if_pos hpj, e1] at he; injection he with he
            rw [← he] at hek; exact absurd hek.symm hk1
          · rw [if_neg hpj] at he
            by_cases hpi : p = i
            · rw [hpi]
            · rw [if_neg hpi] at he
              have := index_inj ok he e2 (by rw [hek, hk2])
              exact absurd this hpj
      · rw [if_neg hk2, ok k p]
        constructor
        · rintro ⟨e, he, hek⟩
          refine ⟨e, ?_, hek⟩
          have hpj : p ≠ j := by rintro rfl; rw [e2] at he; injection he with he; rw [he] at hk2; exact hk2 hek.symm
          have hpi : p ≠ i := by rintro rfl; rw [e1] at he; injection he with he; rw [he] at hk1; exact hk1 hek.symm
          rw [if_neg hpj, if_neg hpi, he]
        · rintro ⟨e, he, hek⟩
          refine ⟨e, ?_, hek⟩
          by_cases hpj : p = j
          · rw [if_pos hpj, e1] at he; injection he with he; rw [← he] at hek; exact absurd hek.symm hk1
          · rw [if_neg hpj] at he
            by_cases hpi : p = i
            · rw [if_pos hpi, e2] at he; injection he with he; rw [← he] at hek; exact absurd hek.symm hk2
            · rw [if_neg hpi] at he; exact he

/-- Heap order everywhere except that position `j` may be smaller than its parent. -/
def UpInv (l : List (Entry K V)) (j : Nat) : Prop :=
  (∀ p, 0 < p → p < l.length → p ≠ j → tm l ((p - 1) / 2) ≤ tm l p) ∧
  (∀ p, 0 < p → p < l.length → (p - 1) / 2 = j → 0 < j → tm l ((j - 1) / 2) ≤ tm l p)

theorem up_spec : ∀ (fuel : Nat) (h : Heap K V) (j : Nat), j < fuel → j < h.list.length → IndexOK h → UpInv h.list j →
    ∃ h', Heap.up fuel h j = .ok h' ∧ IndexOK h' ∧ h'.list.Perm h.list ∧ HeapOrd h'.list h'.list.length := by
  intro fuel
  induction fuel with
  | zero => intro h j hj; omega
  | succ fuel ih =>
    intro h j hf hj ok ⟨inv1, inv2⟩
    unfold Heap.up
    by_cases hj0 : j = 0
    · subst hj0
      refine ⟨h, by simp; rfl, ok, List.Perm.refl _, ?_⟩
      intro p hp hpl
      exact inv1 p hp hpl (by omega)
    · have hlt : (j - 1) / 2 < j := by omega
      rw [if_neg (by omega), less_ok h j _ hj (by omega)]
      simp only [bind, Except.bind]
      by_cases hless : tm h.list j < tm h.list ((j - 1) / 2)
      · have hfalse : (!decide (tm h.list j < tm h.list ((j - 1) / 2))) = false := by simp [hless]
        rw [hfalse]
        simp only [Bool.false_eq_true, if_false]
        obtain ⟨h', hs, hl, ok'⟩ := swap_ok h ((j - 1) / 2) j (by omega) hj ok
        rw [hs]
        simp only
        have hlen : h'.list.length = h.list.length := by rw [hl, sw_length]
        have htm := fun p => tm_sw h.list ((j - 1) / 2) j p (by omega) hj
        have hinv : UpInv h'.list ((j - 1) / 2) := by
          rw [hl]
          constructor
          · intro p hp hpl hpne
            rw [sw_length] at hpl
            rw [htm p, htm ((p - 1) / 2)]
            by_cases hpj : p = j
            · subst hpj
              rw [if_neg (by omega), if_pos rfl, if_pos rfl]; omega
            · rw [if_neg hpj, if_neg hpne]
              by_cases hpp : (p - 1) / 2 = j
              · rw [if_pos hpp]
                exact inv2 p hp hpl hpp (by omega)
              · rw [if_neg hpp]
                by_cases hppi : (p - 1) / 2 = (j - 1) / 2
                · rw [if_pos hppi]
                  have := inv1 p hp hpl hpj
                  rw [hppi] at this; omega
                · rw [if_neg hppi]; exact inv1 p hp hpl hpj
          · intro p hp hpl hpi hi0
            rw [sw_length] at hpl
            have hpne : p ≠ (j - 1) / 2 := by omega
            rw [htm p, htm (((j - 1) / 2 - 1) / 2), if_neg (by omega : ((j - 1) / 2 - 1) / 2 ≠ j),
              if_neg (by omega : ((j - 1) / 2 - 1) / 2 ≠ (j - 1) / 2)]
            have hgp := inv1 ((j - 1) / 2) hi0 (by omega) (by omega)
            by_cases hpj : p = j
            · rw [if_pos hpj]; exact hgp
            · rw [if_neg hpj, if_neg hpne]
              have := inv1 p hp hpl hpj
              rw [hpi] at this; omega
        obtain ⟨h'', hup, ok'', hperm, hord⟩ := ih h' ((j - 1) / 2) (by omega) (by omega) ok' hinv
        refine ⟨h'', hup, ok'', hperm.trans ?_, hord⟩
        rw [hl]; exact sw_perm _ _ _ (by omega) hj
      · have htrue : (!decide (tm h.list j < tm h.list ((j - 1) / 2))) = true := by simp [hless]
        rw [htrue]
        refine ⟨h, rfl, ok, List.Perm.refl _, ?_⟩
        intro p hp hpl
        by_cases hpj : p = j
        · subst hpj; omega
        · exact inv1 p hp hpl hpj

/-- When the element is not smaller than its parent, `up` changes nothing. -/
theorem up_noop (fuel : Nat) (h : Heap K V) (j : Nat) (hj : j < h.list.length)
    (hle : 0 < j → tm h.list ((j - 1) / 2) ≤ tm h.list j) : Heap.up (fuel + 1) h j = .ok h := by
  unfold Heap.up
  by_cases hj0 : j = 0
  · subst hj0; simp; rfl
  · rw [if_neg (by omega), less_ok h j _ hj (by omega)]
    have := hle (by omega)
    have : ¬ tm h.list j < tm h.list ((j - 1) / 2) := by omega
    simp [bind, Except.bind, this]; rfl

/-- Heap order on the first `n` positions except that position `i` may be larger than its children. -/
def DownInv (l : List (Entry K V)) (n i : Nat) : Prop :=
  (∀ p, 0 < p → p < n → (p - 1) / 2 ≠ i → tm l ((p - 1) / 2) ≤ tm l p) ∧
  (∀ p, 0 < p → p < n → (p - 1) / 2 = i → 0 < i → tm l ((i - 1) / 2) ≤ tm l p)

theorem smallerChild_spec (h : Heap K V) (i n : Nat) (hn : n ≤ h.list.length) (hj1 : 2 * i + 1 < n) :
    ∃ j, h.smallerChild i n = .ok j ∧ i < j ∧ j < n ∧ (j - 1) / 2 = i ∧
      ∀ p, 0 < p → p < n → (p - 1) / 2 = i → tm h.list j ≤ tm h.list p := by
  unfold Heap.smallerChild
  by_cases hj2 : 2 * i + 1 + 1 < n
  · simp only
    rw [if_pos hj2, less_ok h _ _ (by omega) (by omega)]
    by_cases hlt : tm h.list (2 * i + 1 + 1) < tm h.list (2 * i + 1)
    · refine ⟨2 * i + 1 + 1, by simp [hlt, bind, Except.bind, pure, Except.pure], by omega, hj2, by omega, ?_⟩
      intro p hp hpn hpp
      have : p = 2 * i + 1 ∨ p = 2 * i + 1 + 1 := by omega
      rcases this with rfl | rfl <;> omega
    · refine ⟨2 * i + 1, by simp [hlt, bind, Except.bind, pure, Except.pure], by omega, by omega, by omega, ?_⟩
      intro p hp hpn hpp
      have : p = 2 * i + 1 ∨ p = 2 * i + 1 + 1 := by omega
      rcases this with rfl | rfl <;> omega
  · simp only
    rw [if_neg hj2]
    refine ⟨2 * i + 1, rfl, by omega, by omega, by omega, ?_⟩
    intro p hp hpn hpp
    have : p = 2 * i + 1 := by omega
    subst this; omega

theorem down_spec : ∀ (fuel : Nat) (h : Heap K V) (i n : Nat), n ≤ h.list.length → n < i + fuel + 1 → 0 < fuel →
    IndexOK h → DownInv h.list n i →
    ∃ h' i', Heap.down fuel h i n = .ok (h', i') ∧ IndexOK h' ∧ h'.list.Perm h.list ∧ HeapOrd h'.list n ∧
      (∀ p, n ≤ p → h'.list[p]? = h.list[p]?) := by
  intro fuel
  induction fuel with
  | zero => intro h i n _ _ h0; omega
  | succ fuel ih =>
    intro h i n hn hf _ ok ⟨inv1, inv2⟩
    unfold Heap.down
    by_cases hj1 : 2 * i + 1 ≥ n
    · rw [if_pos hj1]
      refine ⟨h, i, rfl, ok, List.Perm.refl _, ?_, fun _ _ => rfl⟩
      intro p hp hpn
      exact inv1 p hp hpn (by omega)
    · rw [if_neg hj1]
      -- the smaller child
      obtain ⟨j, hjdef, hij, hjn, hjc, hjmin⟩ := smallerChild_spec h i n hn (by omega)
      rw [hjdef]
      simp only [bind, Except.bind]
      rw [less_ok h j i (by omega) (by omega)]
      by_cases hlt : tm h.list j < tm h.list i
      · simp only [bind, Except.bind, hlt, decide_true, Bool.not_true, Bool.false_eq_true, if_false]
        obtain ⟨h', hs, hl, ok'⟩ := swap_ok h i j (by omega) (by omega) ok
        rw [hs]
        simp only
        have hlen : h'.list.length = h.list.length := by rw [hl, sw_length]
        have htm := fun p => tm_sw h.list i j p (by omega) (by omega)
        have hinv : DownInv h'.list n j := by
          rw [hl]
          constructor
          · intro p hp hpn hpne
            rw [htm p, htm ((p - 1) / 2), if_neg hpne]
            by_cases hpj : p = j
            · rw [if_pos hpj, if_pos (by omega)]; omega
            · rw [if_neg hpj]
              by_cases hpp : (p - 1) / 2 = i
              · rw [if_pos hpp, if_neg (by omega)]
                exact hjmin p hp hpn hpp
              · rw [if_neg hpp]
                by_cases hpi : p = i
                · rw [if_pos hpi]
                  have := inv2 j (by omega) hjn hjc (by omega)
                  rw [hpi]; exact this
                · rw [if_neg hpi]
                  exact inv1 p hp hpn hpp
          · intro p hp hpn hpp hj0
            rw [htm p, htm ((j - 1) / 2), if_neg (by omega : (j - 1) / 2 ≠ j), if_pos hjc,
              if_neg (by omega : p ≠ j), if_neg (by omega : p ≠ i)]
            have := inv1 p hp hpn (by omega)
            rw [hpp] at this; exact this
        obtain ⟨h'', i'', hd, ok'', hperm, hord, hrest⟩ := ih h' j n (by omega) (by omega) (by omega) ok' hinv
        refine ⟨h'', i'', hd, ok'', hperm.trans ?_, hord, ?_⟩
        · rw [hl]; exact sw_perm _ _ _ (by omega) (by omega)
        · intro p hp
          rw [hrest p hp, hl, sw_get _ _ _ _ (by omega) (by omega), if_neg (by omega), if_neg (by omega)]
      · simp only [bind, Except.bind, hlt, decide_false, Bool.not_false, if_true]
        refine ⟨h, i, rfl, ok, List.Perm.refl _, ?_, fun _ _ => rfl⟩
        intro p hp hpn
        by_cases hpp : (p - 1) / 2 = i
        · have := hjmin p hp hpn hpp
          rw [hpp]; omega
        · exact inv1 p hp hpn hpp

/-- When no child is smaller, `down` changes nothing. -/
theorem down_noop (fuel : Nat) (h : Heap K V) (i n : Nat) (hn : n ≤ h.list.length)
    (hle : ∀ p, 0 < p → p < n → (p - 1) / 2 = i → tm h.list i ≤ tm h.list p) :
    Heap.down (fuel + 1) h i n = .ok (h, i) := by
  unfold Heap.down
  by_cases hj1 : 2 * i + 1 ≥ n
  · rw [if_pos hj1]; rfl
  · rw [if_neg hj1]
    obtain ⟨j, hjdef, hij, hjn, hjc, hjmin⟩ := smallerChild_spec h i n hn (by omega)
    have h1 : ¬ tm h.list j < tm h.list i := by
      have := hle j (by omega) hjn hjc; omega
    rw [hjdef]
    simp only [bind, Except.bind]
    rw [less_ok h _ _ (by omega) (by omega)]
    simp [h1]; rfl

/-- A well-formed heap: exact index and heap order. -/
structure WF (h : Heap K V) : Prop where
  index : IndexOK h
  ord : HeapOrd h.list h.list.length

/-- `heap.Fix` on an element whose stamp did not change does nothing. -/
theorem fix_noop (h : Heap K V) (wf : WF h) (i : Nat) (hi : i < h.list.length) : h.fix i = .ok h := by
  unfold Heap.fix
  obtain ⟨m, hm⟩ : ∃ m, h.list.length = m + 1 := ⟨h.list.length - 1, by omega⟩
  have hd := down_noop m h i h.list.length (Nat.le_refl _) (by
    intro p hp hpl hpp
    have := wf.ord p hp hpl
    rw [hpp] at this; exact this)
  rw [← hm] at hd
  rw [hd]
  simp only [bind, Except.bind, Nat.lt_irrefl, gt_iff_lt, if_false]
  exact up_noop i h i hi (fun h0 => wf.ord i h0 hi)

/-- `heap.Push`. -/
theorem push_spec (h : Heap K V) (wf : WF h) (e : Entry K V) (hk : h.index e.key = none) :
    ∃ h', h.push e = .ok h' ∧ WF h' ∧ h'.list.Perm (e :: h.list) := by
  have hidx : IndexOK (h.pushLast e) := by
    intro k i
    simp only [Heap.pushLast, upd]
    by_cases hke : k = e.key
    · rw [if_pos hke]
      constructor
      · intro hi; injection hi with hi
        exact ⟨e, by rw [← hi]; simp, hke.symm⟩
      · rintro ⟨e', he', hek⟩
        rcases Nat.lt_trichotomy i h.list.length with hlt | heq | hgt
        · rw [List.getElem?_append_left hlt] at he'
          have := (wf.index k i).2 ⟨e', he', hek⟩
          rw [hke, hk] at this; cases this
        · rw [heq]
        · rw [List.getElem?_eq_none (by simp; omega)] at he'; cases he'
    · rw [if_neg hke, wf.index k i]
      constructor
      · rintro ⟨e', he', hek⟩
        have hlt : i < h.list.length := by
          rcases Nat.lt_or_ge i h.list.length with hlt | hge
          · exact hlt
          · rw [List.getElem?_eq_none hge] at he'; cases he'
        exact ⟨e', by rw [List.getElem?_append_left hlt]; exact he', hek⟩
      · rintro ⟨e', he', hek⟩
        rcases Nat.lt_trichotomy i h.list.length with hlt | heq | hgt
        · rw [List.getElem?_append_left hlt] at he'
          exact ⟨e', he', hek⟩
        · rw [heq] at he'; simp at he'; rw [← he'] at hek; exact absurd hek.symm hke
        · rw [List.getElem?_eq_none (by simp; omega)] at he'; cases he'
  have htm : ∀ p, p < h.list.length → tm (h.list ++ [e]) p = tm h.list p := by
    intro p hp; unfold tm; rw [List.getElem?_append_left hp]
  have hlen : (h.pushLast e).list.length = h.list.length + 1 := by simp [Heap.pushLast]
  obtain ⟨h', hup, ok', hperm, hord⟩ := up_spec (h.pushLast e).list.length (h.pushLast e) ((h.pushLast e).list.length - 1)
    (by omega) (by omega) hidx (by
      rw [hlen]
      constructor
      · intro p hp hpl hpne
        rw [hlen] at hpl
        show tm (h.list ++ [e]) _ ≤ tm (h.list ++ [e]) _
        rw [htm p (by omega), htm _ (by omega)]
        exact wf.ord p hp (by omega)
      · intro p hp hpl hpp h0
        rw [hlen] at hpl; omega)
  refine ⟨h', hup, ⟨ok', hord⟩, hperm.trans ?_⟩
  simp only [Heap.pushLast]
  exact List.perm_append_singleton e h.list

theorem root_min (l : List (Entry K V)) (n : Nat) (hord : HeapOrd l n) : ∀ p, p < n → tm l 0 ≤ tm l p := by
  intro p
  induction p using Nat.strongRecOn with
  | _ p ih =>
    intro hp
    by_cases h0 : p = 0
    · subst h0; omega
    · have := ih ((p - 1) / 2) (by omega) (by omega)
      have := hord p (by omega) hp
      omega

/-- `heap.Pop` on a non-empty heap removes an entry with the smallest stamp: the root. -/
theorem pop_spec (h : Heap K V) (wf : WF h) (hne : h.list ≠ []) :
    ∃ h' e, h.pop = .ok (h', e) ∧ WF h' ∧ h.list.Perm (e :: h'.list) ∧ h.list[0]? = some e ∧
      (∀ x ∈ h.list, e.last ≤ x.last) := by
  obtain ⟨m, hm⟩ : ∃ m, h.list.length = m + 1 := ⟨h.list.length - 1, by
    have := List.length_pos_iff.2 hne; omega⟩
  have hn : (h.list.length : Int) - 1 = ((m : Nat) : Int) := by omega
  obtain ⟨h1, hs, hl1, ok1⟩ := swap_ok h 0 m (by omega) (by omega) wf.index
  have hlen1 : h1.list.length = m + 1 := by rw [hl1, sw_length, hm]
  have htm := fun p => tm_sw h.list 0 m p (by omega) (by omega)
  obtain ⟨h2, i2, hd, ok2, hperm2, hord2, hrest2⟩ := down_spec h1.list.length h1 0 m (by omega) (by omega) (by omega) ok1 (by
    rw [hl1]
    constructor
    · intro p hp hpn hpp
      rw [htm p, htm ((p - 1) / 2), if_neg (by omega), if_neg (by omega), if_neg (by omega), if_neg (by omega)]
      exact wf.ord p hp (by omega)
    · intro p hp hpn hpp h0; omega)
  have hlen2 : h2.list.length = m + 1 := by rw [hperm2.length_eq, hlen1]
  have e0 : h.list[0]? = some (h.list[0]'(by omega)) := List.getElem?_eq_getElem (by omega)
  have elast : h2.list[m]? = some (h.list[0]'(by omega)) := by
    rw [hrest2 m (Nat.le_refl _), hl1, sw_get _ _ _ _ (by omega) (by omega), if_pos rfl, e0]
  have elast' : h2.list[m]'(by omega) = h.list[0]'(by omega) := by
    rw [List.getElem?_eq_getElem (by omega)] at elast; injection elast
  have hsplit : h2.list = h2.list.take m ++ [h.list[0]'(by omega)] := by
    have := List.take_append_drop m h2.list
    rw [List.drop_eq_getElem_cons (by omega), elast', List.drop_of_length_le (by omega)] at this
    exact this.symm
  refine ⟨{ list := h2.list.take m, index := upd h2.index (h.list[0]'(by omega)).key none }, h.list[0]'(by omega), ?_, ⟨?_, ?_⟩, ?_, e0, ?_⟩
  · unfold Heap.pop
    simp only [hn]
    have : h.swap 0 (m : Int) = .ok h1 := hs
    rw [this]
    simp only [bind, Except.bind, Int.toNat_natCast]
    rw [hd]
    simp only [Heap.popLast]
    have hn2 : (h2.list.length : Int) - 1 = ((m : Nat) : Int) := by omega
    rw [hn2, Go.idx_nat _ m (by omega), elast']
    simp only [bind, Except.bind]
    have : Go.slice h2.list 0 (m : Int) = .ok (h2.list.take m) := by
      unfold Go.slice
      rw [if_pos ⟨by omega, by omega, by omega⟩]; simp
    rw [this]; rfl
  · intro k i
    simp only [upd]
    by_cases hk : k = (h.list[0]'(by omega)).key
    · rw [if_pos hk]
      constructor
      · intro hc; cases hc
      · rintro ⟨e', he', hek⟩
        have hi : i < m := by
          rcases Nat.lt_or_ge i m with hlt | hge
          · exact hlt
          · rw [List.getElem?_eq_none (by simp; omega)] at he'; cases he'
        rw [List.getElem?_take_of_lt hi] at he'
        have := index_inj ok2 he' elast (by rw [hek, hk])
        omega
    · rw [if_neg hk, ok2 k i]
      constructor
      · rintro ⟨e', he', hek⟩
        have hi : i < m := by
          rcases Nat.lt_trichotomy i m with hlt | heq | hge
          · exact hlt
          · rw [heq, elast] at he'; injection he' with he'; rw [he'] at hk; exact absurd hek.symm hk
          · rw [List.getElem?_eq_none (by omega)] at he'; cases he'
        exact ⟨e', by rw [List.getElem?_take_of_lt hi]; exact he', hek⟩
      · rintro ⟨e', he', hek⟩
        have hi : i < m := by
          rcases Nat.lt_or_ge i m with hlt | hge
          · exact hlt
          · rw [List.getElem?_eq_none (by simp; omega)] at he'; cases he'
        rw [List.getElem?_take_of_lt hi] at he'
        exact ⟨e', he', hek⟩
  · intro p hp hpl
    simp only [List.length_take] at hpl
    have ht : ∀ q, q < m → tm (h2.list.take m) q = tm h2.list q := by
      intro q hq; unfold tm; rw [List.getElem?_take_of_lt hq]
    rw [ht p (by omega), ht _ (by omega)]
    exact hord2 p hp (by omega)
  · have p1 : h.list.Perm h2.list := by
      refine (List.Perm.trans hperm2 ?_).symm
      rw [hl1]; exact sw_perm _ _ _ (by omega) (by omega)
    refine p1.trans ?_
    rw [hsplit]
    simp only [List.take_left']
    have : (List.take m (List.take m h2.list ++ [h.list[0]'(by omega)])) = h2.list.take m := by rw [← hsplit]
    rw [this]
    exact List.perm_append_singleton _ _
  · intro x hx
    obtain ⟨p, hp⟩ := List.mem_iff_getElem?.1 hx
    have hpl : p < h.list.length := by
      rcases Nat.lt_or_ge p h.list.length with hlt | hge
      · exact hlt
      · rw [List.getElem?_eq_none hge] at hp; cases hp
    have := root_min h.list h.list.length wf.ord p hpl
    unfold tm at this
    rw [hp, e0] at this
    exact this

/-- `heap.Pop` on an empty heap panics. -/
theorem pop_empty (h : Heap K V) (he : h.list = []) : h.pop = .error .index := by
  unfold Heap.pop
  simp [he, Heap.swap, Go.swap, Go.idx, bind, Except.bind]

/-- Setting a stamp to zero and calling `heap.Fix` restores a well-formed heap. -/
theorem fix_zero (h : Heap K V) (wf : WF h) (i : Nat) (e : Entry K V) (hi : h.list[i]? = some e) :
    ∃ h', Heap.fix { h with list := h.list.set i { e with last := 0 } } i = .ok h' ∧ WF h' ∧
      h'.list.Perm (h.list.set i { e with last := 0 }) := by
  have hil : i < h.list.length := by
    rcases Nat.lt_or_ge i h.list.length with hlt | hge
    · exact hlt
    · rw [List.getElem?_eq_none hge] at hi; cases hi
  generalize hl : h.list.set i { e with last := 0 } = l
  have hlen : l.length = h.list.length := by rw [← hl]; simp
  have htm : ∀ p, tm l p = if p = i then 0 else tm h.list p := by
    intro p
    unfold tm
    rw [← hl]
    by_cases hp : p = i
    · subst hp; simp [hil]
    · rw [List.getElem?_set_ne (by omega), if_neg hp]
  have hidx : IndexOK { h with list := l } := by
    intro k p
    simp only
    rw [wf.index k p, ← hl]
    by_cases hp : p = i
    · subst hp
      have : h.list[p] = e := by rw [List.getElem?_eq_getElem hil] at hi; injection hi
      simp [hil, this]
    · rw [List.getElem?_set_ne (by omega)]
  unfold Heap.fix
  obtain ⟨m, hm⟩ : ∃ m, l.length = m + 1 := ⟨l.length - 1, by omega⟩
  have hd := down_noop m { h with list := l } i l.length (Nat.le_refl _) (by
    intro p hp hpl hpp
    rw [htm i, if_pos rfl]; omega)
  rw [← hm] at hd
  simp only at hd ⊢
  rw [hd]
  simp only [bind, Except.bind, Nat.lt_irrefl, gt_iff_lt, if_false]
  obtain ⟨h', hup, ok', hperm, hord⟩ := up_spec (i + 1) { h with list := l } i (by omega) (by simp only; omega) hidx (by
    simp only
    constructor
    · intro p hp hpl hpi
      rw [htm p, htm ((p - 1) / 2), if_neg hpi]
      split
      · omega
      · exact wf.ord p hp (by omega)
    · intro p hp hpl hpp h0
      rw [htm p, htm ((i - 1) / 2), if_neg (by omega), if_neg (by omega)]
      have h1 := wf.ord p hp (by omega)
      have h2 := wf.ord i h0 hil
      rw [hpp] at h1; omega)
  exact ⟨h', hup, ⟨ok', hord⟩, hperm⟩

end Verif.Caches

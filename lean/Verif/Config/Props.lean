import Verif.Config.Spec
/-!
# Properties of configuration loading (C37, C38, C70)
-/
set_option autoImplicit false
namespace Verif.Config
open Verif.Strconv Verif.Enc

/-! ### splitting and joining -/

theorem splitOn_ne_nil (sep : Char) (s : Str) : splitOn sep s ≠ [] := by
  induction s with
  | nil => simp [splitOn]
  | cons c cs ih =>
    simp only [splitOn]
    split
    · simp
    · split <;> simp

theorem splitOn_single (sep : Char) (p : Str) (h : sep ∉ p) : splitOn sep p = [p] := by
  induction p with
  | nil => rfl
  | cons c cs ih =>
    simp only [List.mem_cons, not_or] at h
    simp only [splitOn]
    rw [if_neg (fun e => h.1 e.symm), ih h.2]

theorem splitOn_append (sep : Char) (p rest : Str) (h : sep ∉ p) : splitOn sep (p ++ sep :: rest) = p :: splitOn sep rest := by
  induction p with
  | nil => simp [splitOn]
  | cons c cs ih =>
    simp only [List.mem_cons, not_or] at h
    simp only [List.cons_append, splitOn]
    rw [if_neg (fun e => h.1 e.symm), ih h.2]

theorem splitOn_join (sep : Char) (ps : List Str) (hne : ps ≠ []) (h : ∀ p ∈ ps, sep ∉ p) : splitOn sep (join sep ps) = ps := by
  induction ps with
  | nil => contradiction
  | cons p ps ih =>
    cases ps with
    | nil => exact splitOn_single sep p (h p (by simp))
    | cons q qs =>
      simp only [join]
      rw [splitOn_append sep p _ (h p (by simp)), ih (by simp) (fun x hx => h x (by simp [hx]))]

theorem join_splitOn (sep : Char) (s : Str) : join sep (splitOn sep s) = s ∧ ∀ p ∈ splitOn sep s, sep ∉ p := by
  induction s with
  | nil => simp [splitOn, join]
  | cons c cs ih =>
    simp only [splitOn]
    split
    · rename_i hc
      subst hc
      obtain ⟨h1, h2⟩ := ih
      cases hs : splitOn c cs with
      | nil => exact absurd hs (splitOn_ne_nil c cs)
      | cons p ps =>
        rw [hs] at h1 h2
        refine ⟨by simp [join, h1], ?_⟩
        intro q hq
        rcases List.mem_cons.1 hq with rfl | hq
        · simp
        · exact h2 q hq
    · rename_i hc
      obtain ⟨h1, h2⟩ := ih
      cases hs : splitOn sep cs with
      | nil => exact absurd hs (splitOn_ne_nil sep cs)
      | cons p ps =>
        rw [hs] at h1 h2
        simp only
        constructor
        · cases ps with
          | nil => simp [join] at h1 ⊢; exact h1
          | cons q qs => simp [join] at h1 ⊢; exact h1
        · intro q hq
          rcases List.mem_cons.1 hq with rfl | hq
          · have := h2 p (by simp)
            simp only [List.mem_cons, not_or]
            exact ⟨fun e => hc e.symm, this⟩
          · exact h2 q (by simp [hq])

theorem cut_join (sep : Char) (k v : Str) (h : sep ∉ k) : cut sep (k ++ sep :: v) = (k, v) := by
  induction k with
  | nil => simp [cut]
  | cons c cs ih =>
    simp only [List.mem_cons, not_or] at h
    simp only [List.cons_append, cut]
    rw [if_neg (fun e => h.1 e.symm), ih h.2]

theorem cut_none (sep : Char) (k : Str) (h : sep ∉ k) : cut sep k = (k, []) := by
  induction k with
  | nil => rfl
  | cons c cs ih =>
    simp only [List.mem_cons, not_or] at h
    simp only [cut]
    rw [if_neg (fun e => h.1 e.symm), ih h.2]

theorem cut_cases (sep : Char) (s : Str) : sep ∉ (cut sep s).1 ∧ (s = (cut sep s).1 ++ sep :: (cut sep s).2 ∨ (s = (cut sep s).1 ∧ (cut sep s).2 = [])) := by
  induction s with
  | nil => simp [cut]
  | cons c cs ih =>
    simp only [cut]
    split
    · rename_i h; subst h; simp
    · rename_i h
      obtain ⟨h1, h2⟩ := ih
      refine ⟨by simp only [List.mem_cons, not_or]; exact ⟨fun e => h e.symm, h1⟩, ?_⟩
      rcases h2 with h2 | ⟨h2, h3⟩
      · left; simp; exact h2
      · right; simp; exact ⟨h2, h3⟩

/-! ### C37 -/

theorem parseOpts_append (os os' : List Str) (d : Option Str) :
    parseOpts (os ++ os') d = (parseOpts os d).bind (fun d => parseOpts os' d) := by
  induction os generalizing d with
  | nil => rfl
  | cons o os ih =>
    simp only [List.cons_append, parseOpts]
    split
    · exact ih _
    · rfl

theorem parseOpts_of_tagOpts {os : List Str} {d : Option Str} (h : TagOpts os d) : parseOpts os none = some d := by
  induction h with
  | none => rfl
  | bare os d _ ih =>
    rw [parseOpts_append, ih]
    have : cut '=' (lit "default") = (lit "default", []) := cut_none _ _ (by decide)
    simp [parseOpts, this]
  | value os d v _ ih =>
    rw [parseOpts_append, ih]
    have : cut '=' (lit "default=" ++ v) = (lit "default", v) := cut_join '=' (lit "default") v (by decide)
    simp [parseOpts, this]

theorem tagOpts_of_parseOpts : ∀ (os : List Str) (pre : List Str) (d0 d : Option Str), TagOpts pre d0 → parseOpts os d0 = some d → TagOpts (pre ++ os) d := by
  intro os
  induction os with
  | nil => intro pre d0 d hp h; simp [parseOpts] at h; subst h; simpa using hp
  | cons o os ih =>
    intro pre d0 d hp h
    simp only [parseOpts] at h
    split at h
    · rename_i hk
      have ho : TagOpts (pre ++ [o]) (some (cut '=' o).2) := by
        rcases (cut_cases '=' o).2 with hc | ⟨hc, hc2⟩
        · rw [hk] at hc
          have : o = lit "default=" ++ (cut '=' o).2 := hc
          have hv := TagOpts.value pre d0 (cut '=' o).2 hp
          rw [← this] at hv; exact hv
        · rw [hk] at hc
          rw [hc2]
          have hv := TagOpts.bare pre d0 hp
          rw [← hc] at hv; exact hv
      have := ih (pre ++ [o]) _ d ho h
      simpa using this
    · cases h

theorem tag_split (key : Str) (opts : List Str) (hk : ',' ∉ key) (ho : ∀ o ∈ opts, ',' ∉ o) : splitOn ',' (join ',' (key :: opts)) = key :: opts := by
  apply splitOn_join _ _ (by simp)
  intro p hp
  rcases List.mem_cons.1 hp with rfl | hp
  · exact hk
  · exact ho p hp

theorem loadField_iff (custom : Nat → CVal → Str → Except Stop CVal) (f : Str → Str) (fd : Field) (old new : CVal) :
    loadField custom f fd old = .ok new ↔ Loaded custom f fd old new := by
  constructor
  · intro h
    obtain ⟨tag, ty, exported⟩ := fd
    unfold loadField at h
    by_cases ht : tag = []
    · subst ht; simp at h; subst h; exact .untagged ty exported old
    · simp only [ht, if_false] at h
      obtain ⟨hj, hc⟩ := join_splitOn ',' tag
      cases hs : splitOn ',' tag with
      | nil => exact absurd hs (splitOn_ne_nil _ _)
      | cons key opts =>
        rw [hs] at h hj hc
        simp only [List.headD_cons, List.tail_cons] at h
        cases hp : parseOpts opts none with
        | none => rw [hp] at h; cases h
        | some d =>
          rw [hp] at h
          have hto : TagOpts opts d := by simpa using tagOpts_of_parseOpts opts [] none d .none hp
          simp only at h
          by_cases hv : f key = []
          · cases d with
            | none => simp [hv] at h
            | some d =>
              simp only [hv, if_true] at h
              cases exported with
              | false => simp at h
              | true =>
                simp only [if_true] at h
                rw [← hj]
                exact .default key opts d ty old new (by rw [hj]; exact ht) (hc key (by simp)) (fun o ho => hc o (by simp [ho])) hto hv h
          · simp only [hv, if_false] at h
            cases exported with
            | false => simp at h
            | true =>
              simp only [if_true] at h
              rw [← hj]
              exact .found key opts d ty old new (by rw [hj]; exact ht) (hc key (by simp)) (fun o ho => hc o (by simp [ho])) hto hv h
  · intro h
    cases h with
    | untagged ty exported => simp [loadField]
    | found key opts d ty _ _ hne hk ho hto hf hu =>
      simp [loadField, hne, tag_split key opts hk ho, parseOpts_of_tagOpts hto, hf, hu]
    | default key opts d ty _ _ hne hk ho hto hf hu =>
      simp [loadField, hne, tag_split key opts hk ho, parseOpts_of_tagOpts hto, hf, hu]

/-- No methods. -/
def noCustom : Nat → CVal → Str → Except Stop CVal := fun _ _ _ => .error .err

/-- C37: loading succeeds with a result iff, field by field, the result is what the tag asks for: untagged fields keep their value,
tagged fields hold the parse of the looked-up value, or of the default when the lookup is empty. In particular a tagged field with
neither, and an unknown option, are failures. -/
theorem C37_from (custom : Nat → CVal → Str → Except Stop CVal) (f : Str → Str) (fds : List Field) (vs out : List CVal) (hlen : fds.length = vs.length) :
    load custom f fds vs = (out, none) ↔
      out.length = vs.length ∧ ∀ (i : Nat) (fd : Field) (v v' : CVal), fds[i]? = some fd → vs[i]? = some v → out[i]? = some v' → Loaded custom f fd v v' := by
  induction fds generalizing vs out with
  | nil =>
    cases vs with
    | nil => simp [load, eq_comm]
    | cons v vs => simp at hlen
  | cons fd fds ih =>
    cases vs with
    | nil => simp at hlen
    | cons v vs =>
      simp only [List.length_cons, Nat.add_right_cancel_iff] at hlen
      simp only [load]
      constructor
      · intro h
        split at h
        · simp at h
        · rename_i v' hv'
          simp only [Prod.mk.injEq] at h
          obtain ⟨ho, hn⟩ := h
          obtain ⟨h1, h2⟩ := (ih vs (load custom f fds vs).1 hlen).1 (by rw [← hn])
          subst ho
          refine ⟨by simp [h1], ?_⟩
          intro i
          cases i with
          | zero =>
            intro fd' w w' e1 e2 e3
            simp at e1 e2 e3; subst e1 e2 e3
            exact (loadField_iff _ _ _ _ _).1 hv'
          | succ i => intro fd' w w' e1 e2 e3; exact h2 i fd' w w' (by simpa using e1) (by simpa using e2) (by simpa using e3)
      · rintro ⟨h1, h2⟩
        cases out with
        | nil => simp at h1
        | cons v' out =>
          have h0 := (loadField_iff _ _ _ _ _).2 (h2 0 fd v v' rfl rfl rfl)
          rw [h0]
          have := (ih vs out hlen).2 ⟨by simpa using h1, fun i a b c e1 e2 e3 => h2 (i + 1) a b c (by simpa using e1) (by simpa using e2) (by simpa using e3)⟩
          simp [this]

example : load noCustom (fun k => if k = lit "port" then lit "80" else []) [⟨lit "port,default=1", .int false, true⟩, ⟨lit "l,default=x", .slice .str, true⟩] [.int 0, .slice (some [.str (lit "w")])] =
    ([.int 80, .slice (some [.str (lit "w"), .str (lit "x")])], none) := by rfl

/-- C37: when loading fails, some field could not be loaded; the fields before it are loaded, it and the ones after it are untouched. -/
theorem C37_failure (custom : Nat → CVal → Str → Except Stop CVal) (f : Str → Str) (fds : List Field) (vs out : List CVal) (e : Stop)
    (h : load custom f fds vs = (out, some e)) :
    ∃ (n : Nat) (fd : Field) (v : CVal), fds[n]? = some fd ∧ vs[n]? = some v ∧ loadField custom f fd v = .error e ∧ (¬ ∃ v', Loaded custom f fd v v') ∧
      out.drop n = vs.drop n ∧ load custom f (fds.take n) (vs.take n) = (out.take n, none) := by
  induction fds generalizing vs out with
  | nil => simp [load] at h
  | cons fd fds ih =>
    cases vs with
    | nil => simp [load] at h
    | cons v vs =>
      simp only [load] at h
      split at h
      · rename_i e' he
        simp only [Prod.mk.injEq, Option.some.injEq] at h
        obtain ⟨rfl, rfl⟩ := h
        refine ⟨0, fd, v, rfl, rfl, he, ?_, rfl, rfl⟩
        rintro ⟨v', hl⟩
        rw [(loadField_iff _ _ _ _ _).2 hl] at he; cases he
      · rename_i v' hv
        simp only [Prod.mk.injEq] at h
        obtain ⟨ho, hn⟩ := h
        obtain ⟨n, fd', w, h1, h2, h3, h4, h5, h6⟩ := ih vs (load custom f fds vs).1 (by rw [← hn])
        subst ho
        refine ⟨n + 1, fd', w, by simpa using h1, by simpa using h2, h3, h4, by simpa using h5, ?_⟩
        simp [load, hv, h6]

/-- The second of three fields has neither value nor default: the first is set, the third is not. -/
example : load noCustom (fun _ => []) [⟨lit "a,default=1", .int false, true⟩, ⟨lit "b", .str, true⟩, ⟨lit "c,default=2", .int false, true⟩] [.int 0, .str [], .int 0] =
    ([.int 1, .str [], .int 0], some .err) := by rfl

/-! ### C38 -/

theorem lower_eq (c d : Char) (hd : (d.isLower = true) ∨ d.isDigit = true) : lower c = d ↔ c = d ∨ (d.isLower = true ∧ c = d.toUpper) := by
  have table : ∀ n : Fin 128, ∀ m : Fin 128, ((Char.ofNat m.val).isLower = true ∨ (Char.ofNat m.val).isDigit = true) →
      (lower (Char.ofNat n.val) = Char.ofNat m.val ↔ Char.ofNat n.val = Char.ofNat m.val ∨ ((Char.ofNat m.val).isLower = true ∧ Char.ofNat n.val = (Char.ofNat m.val).toUpper)) := by
    decide +kernel
  have hdlt : d.toNat < 128 := by
    rcases hd with hd | hd
    · simp only [Char.isLower, Bool.and_eq_true, decide_eq_true_eq] at hd
      have := hd.2
      have h2 : d.val.toNat ≤ 122 := by simpa using UInt32.le_iff_toNat_le.1 this
      exact Nat.lt_of_le_of_lt h2 (by omega)
    · simp only [Char.isDigit, Bool.and_eq_true, decide_eq_true_eq] at hd
      have := hd.2
      have h2 : d.val.toNat ≤ 57 := by simpa using UInt32.le_iff_toNat_le.1 this
      exact Nat.lt_of_le_of_lt h2 (by omega)
  have hde : Char.ofNat d.toNat = d := Char.ofNat_toNat d
  by_cases hc : c.toNat < 128
  · have hce : Char.ofNat c.toNat = c := Char.ofNat_toNat c
    have := table ⟨c.toNat, hc⟩ ⟨d.toNat, hdlt⟩ (by simpa [hde] using hd)
    simpa [hde, hce] using this
  · have hl : lower c = c := by
      unfold lower
      rw [if_neg]
      rintro ⟨_, h2⟩
      have h2 : c.val.toNat ≤ 90 := by simpa using UInt32.le_iff_toNat_le.1 h2
      exact hc (Nat.lt_of_le_of_lt h2 (by omega))
    rw [hl]
    constructor
    · exact .inl
    · rintro (h | ⟨h1, h⟩)
      · exact h
      · exfalso
        have tu : ∀ m : Fin 128, (Char.ofNat m.val).toUpper.toNat < 128 := by decide +kernel
        have := tu ⟨d.toNat, hdlt⟩
        simp only [hde] at this
        rw [← h] at this; exact hc this

theorem sameWord_iff (a w : Str) (hw : ∀ d ∈ w, d.isLower = true ∨ d.isDigit = true) : a.map lower = w ↔ SameWord a w := by
  induction a generalizing w with
  | nil =>
    cases w with
    | nil => simp [SameWord]
    | cons d w => simp [SameWord]
  | cons c a ih =>
    cases w with
    | nil => simp [SameWord]
    | cons d w =>
      simp only [List.map_cons, List.cons.injEq]
      rw [ih w (fun x hx => hw x (by simp [hx])), lower_eq c d (hw d (by simp))]
      constructor
      · rintro ⟨h1, h2, h3⟩
        refine ⟨by simp [h2], ?_⟩
        intro i
        cases i with
        | zero => intro x y hx hy; simp at hx hy; subst hx hy; exact h1
        | succ i => intro x y hx hy; exact h3 i x y (by simpa using hx) (by simpa using hy)
      · rintro ⟨h2, h3⟩
        refine ⟨h3 0 c d rfl rfl, by simpa using h2, ?_⟩
        intro i x y hx hy
        exact h3 (i + 1) x y (by simpa using hx) (by simpa using hy)

/-- C38: booleans are exactly these words, in any mix of letter cases. -/
theorem C38_bool (custom : Nat → CVal → Str → Except Stop CVal) (old : CVal) (val : Str) (v : CVal) :
    unmarshalText custom (.bool false) old val = .ok v ↔
      (v = .bool true ∧ ∃ w ∈ ["true", "1", "yes", "y"], SameWord val (lit w)) ∨
      (v = .bool false ∧ ∃ w ∈ ["", "false", "0", "no", "n"], SameWord val (lit w)) := by
  have hw : ∀ w ∈ ["true", "1", "yes", "y", "", "false", "0", "no", "n"], (val.map lower = lit w ↔ SameWord val (lit w)) := by
    intro w hw
    apply sameWord_iff
    have : ∀ w ∈ ["true", "1", "yes", "y", "", "false", "0", "no", "n"], ∀ d ∈ lit w, d.isLower = true ∨ d.isDigit = true := by decide
    exact this w hw
  have hdis : (∃ w ∈ ["true", "1", "yes", "y"], val.map lower = lit w) → ¬ (∃ w ∈ ["", "false", "0", "no", "n"], val.map lower = lit w) := by
    rintro ⟨w, hw, he⟩ ⟨w', hw', he'⟩
    have : ∀ w ∈ ["true", "1", "yes", "y"], ∀ w' ∈ ["", "false", "0", "no", "n"], lit w ≠ lit w' := by decide
    exact this w hw w' hw' (by rw [← he, he'])
  have e1 : (∃ w ∈ ["true", "1", "yes", "y"], SameWord val (lit w)) ↔ ∃ w ∈ ["true", "1", "yes", "y"], val.map lower = lit w := by
    constructor <;> rintro ⟨w, h, h2⟩ <;> refine ⟨w, h, ?_⟩
    · exact (hw w (by simp at h ⊢; grind)).2 h2
    · exact (hw w (by simp at h ⊢; grind)).1 h2
  have e2 : (∃ w ∈ ["", "false", "0", "no", "n"], SameWord val (lit w)) ↔ ∃ w ∈ ["", "false", "0", "no", "n"], val.map lower = lit w := by
    constructor <;> rintro ⟨w, h, h2⟩ <;> refine ⟨w, h, ?_⟩
    · exact (hw w (by simp at h ⊢; grind)).2 h2
    · exact (hw w (by simp at h ⊢; grind)).1 h2
  rw [e1, e2]
  have hp : unmarshalText custom (.bool false) old val = match parseBool val with | some b => .ok (.bool b) | none => .error .err := by
    simp only [unmarshalText]; cases parseBool val <;> simp
  rw [hp]
  unfold parseBool
  simp only [List.mem_cons, List.not_mem_nil, or_false, exists_eq_or_imp, exists_eq_left] at hdis ⊢
  by_cases ht : (val.map lower = lit "true" ∨ val.map lower = lit "1" ∨ val.map lower = lit "yes" ∨ val.map lower = lit "y")
  · have := hdis ht
    simp only [ht, if_true, and_true, this, and_false, or_false]
    constructor
    · intro h; injection h with h; exact h.symm
    · rintro rfl; rfl
  · by_cases hf : (val.map lower = lit "" ∨ val.map lower = lit "false" ∨ val.map lower = lit "0" ∨ val.map lower = lit "no" ∨ val.map lower = lit "n")
    · simp only [ht, hf, if_true, if_false, and_false, and_true, false_or]
      constructor
      · intro h; injection h with h; exact h.symm
      · rintro rfl; rfl
    · simp [ht, hf]

example : unmarshalText noCustom (.bool false) (.bool true) (lit "nO") = .ok (.bool false) ∧ unmarshalText noCustom (.bool false) (.bool true) (lit "on") = .error .err := ⟨rfl, rfl⟩

/-- C38: integers are decimal text within 64 bits: an optional sign, then digits. -/
theorem C38_int (custom : Nat → CVal → Str → Except Stop CVal) (old : CVal) (val : Str) (v : CVal) :
    unmarshalText custom (.int false) old val = .ok v ↔
      ∃ (i : Int) (sign digits : Str) (n : Nat), v = .int i ∧ val = sign ++ digits ∧ digits ≠ [] ∧ digitsVal 0 digits = some n ∧
        -2 ^ 63 ≤ i ∧ i < 2 ^ 63 ∧ ((sign = ['-'] ∧ i = -(n : Int)) ∨ ((sign = [] ∨ sign = ['+']) ∧ i = n)) := by
  have pn : ∀ (r : Str) (n : Nat), parseNat r = some n ↔ r ≠ [] ∧ digitsVal 0 r = some n := by
    intro r n; cases r <;> simp [parseNat]
  have hp : unmarshalText custom (.int false) old val = .ok v ↔ ∃ i, parseInt val = some i ∧ v = .int i := by
    simp only [unmarshalText]
    cases parseInt val <;> simp [eq_comm (a := v)]
  rw [hp]
  constructor
  · rintro ⟨i, hi, rfl⟩
    unfold parseInt at hi
    split at hi
    · rename_i r
      cases hr : parseNat r with
      | none => simp [hr] at hi
      | some n =>
        simp only [hr] at hi
        split at hi
        · injection hi with hi; subst hi
          obtain ⟨h1, h2⟩ := (pn r n).1 hr
          exact ⟨_, ['-'], r, n, rfl, rfl, h1, h2, by omega, by omega, .inl ⟨rfl, rfl⟩⟩
        · cases hi
    · rename_i r
      cases hr : parseNat r with
      | none => simp [hr] at hi
      | some n =>
        simp only [hr] at hi
        split at hi
        · injection hi with hi; subst hi
          obtain ⟨h1, h2⟩ := (pn r n).1 hr
          exact ⟨_, ['+'], r, n, rfl, rfl, h1, h2, by omega, by omega, .inr ⟨.inr rfl, rfl⟩⟩
        · cases hi
    · rename_i r _ _
      cases hr : parseNat val with
      | none => simp [hr] at hi
      | some n =>
        simp only [hr] at hi
        split at hi
        · injection hi with hi; subst hi
          obtain ⟨h1, h2⟩ := (pn val n).1 hr
          exact ⟨_, [], val, n, rfl, rfl, h1, h2, by omega, by omega, .inr ⟨.inl rfl, rfl⟩⟩
        · cases hi
  · rintro ⟨i, sign, digits, n, rfl, rfl, h1, h2, lo, hi, hs⟩
    refine ⟨i, ?_, rfl⟩
    have hn := (pn digits n).2 ⟨h1, h2⟩
    rcases hs with ⟨rfl, rfl⟩ | ⟨rfl | rfl, rfl⟩
    · simp only [List.cons_append, List.nil_append, parseInt, hn]; rw [if_pos (by omega)]
    · simp only [List.nil_append]
      unfold parseInt
      split
      · simp [digitsVal, digitVal] at h2
      · simp [digitsVal, digitVal] at h2
      · simp only [hn]; rw [if_pos (by omega)]
    · simp only [List.cons_append, List.nil_append, parseInt, hn]; rw [if_pos (by omega)]

example : unmarshalText noCustom (.int false) (.int 5) (lit "-9223372036854775808") = .ok (.int (-2 ^ 63)) ∧
    unmarshalText noCustom (.int false) (.int 5) (lit "9223372036854775808") = .error .err ∧ unmarshalText noCustom (.int false) (.int 5) (lit "+007") = .ok (.int 7) := ⟨rfl, rfl, rfl⟩

/-- C38: strings are taken as they are. -/
theorem C38_string (custom : Nat → CVal → Str → Except Stop CVal) (old : CVal) (val : Str) : unmarshalText custom .str old val = .ok (.str val) := rfl

theorem parseParts_ok (parse : Str → Except Stop CVal) (ps : List Str) (vs : List CVal) :
    parseParts parse ps = .ok vs ↔ ps.map parse = vs.map .ok := by
  induction ps generalizing vs with
  | nil => cases vs <;> simp [parseParts]
  | cons p ps ih =>
    simp only [parseParts]
    cases hp : parse p with
    | error e => cases vs <;> simp [hp]
    | ok v =>
      cases hr : parseParts parse ps with
      | error e =>
        cases vs with
        | nil => simp
        | cons w vs =>
          simp only [List.map_cons, hp, List.cons.injEq, Except.ok.injEq, reduceCtorEq, false_iff, not_and]
          intro _ hm
          rw [(ih vs).2 hm] at hr; cases hr
      | ok ws =>
        cases vs with
        | nil => simp
        | cons w vs =>
          simp only [List.map_cons, hp, List.cons.injEq, Except.ok.injEq, ← ih vs, hr]

/-- C38: a non-empty list text is the parts between commas, each parsed into a fresh element and appended in order to what was there.
`parts` ranges over all ways to write a non-empty text. -/
theorem C38_list (custom : Nat → CVal → Str → Except Stop CVal) (e : CTy) (old v : CVal) (parts : List Str) (hne : join ',' parts ≠ [])
    (hc : ∀ p ∈ parts, ',' ∉ p) :
    unmarshalText custom (.slice e) old (join ',' parts) = .ok v ↔
      ∃ vs, v = .slice (some (old.elems ++ vs)) ∧ parts.map (unmarshalText custom e (zero e)) = vs.map .ok := by
  have hp : parts ≠ [] := by rintro rfl; simp [join] at hne
  simp only [unmarshalText, ne_eq, hne, not_false_eq_true, if_true, splitOn_join ',' parts hp hc]
  constructor
  · intro h
    split at h
    · rename_i vs hvs; injection h with h; exact ⟨vs, h.symm, (parseParts_ok _ _ _).1 hvs⟩
    · cases h
  · rintro ⟨vs, rfl, hvs⟩; rw [(parseParts_ok _ _ _).2 hvs]

example : unmarshalText noCustom (.slice (.int false)) (.slice none) (lit "2,x") = .error .err ∧
    unmarshalText noCustom (.slice .str) (.slice (some [.str (lit "a")])) (lit "b,,c") = .ok (.slice (some [.str (lit "a"), .str (lit "b"), .str [], .str (lit "c")])) := ⟨rfl, rfl⟩

/-- C38: every text is such a list of parts; the empty text leaves lists and maps as they were. -/
theorem C38_parts (val : Str) : ∃ parts, val = join ',' parts ∧ ∀ p ∈ parts, ',' ∉ p :=
  ⟨_, (join_splitOn ',' val).1.symm, (join_splitOn ',' val).2⟩

example : splitOn ',' (lit ",a,") = [[], lit "a", []] := by decide

theorem C38_empty_keeps (custom : Nat → CVal → Str → Except Stop CVal) (e : CTy) (old : CVal) (b : Bool) :
    unmarshalText custom (.slice e) old [] = .ok old ∧ unmarshalText custom (.map b e) old [] = .ok old := by
  constructor <;> simp [unmarshalText]

/-- C38: a map text is a list of `key=value` parts (a missing `=` means an empty value); the result is a new map where the last
duplicate of a key wins. `entries` ranges over keys without `,` and `=` and values without `,`. -/
theorem C38_map (custom : Nat → CVal → Str → Except Stop CVal) (e : CTy) (old v : CVal) (entries : List (Str × Str)) (hne : entries ≠ [])
    (hk : ∀ p ∈ entries, ',' ∉ p.1 ∧ '=' ∉ p.1 ∧ ',' ∉ p.2) :
    unmarshalText custom (.map true e) old (join ',' (entries.map (fun p => p.1 ++ '=' :: p.2))) = .ok v ↔
      ∃ (vs : List CVal) (m : List (Str × CVal)), v = .map (some m) ∧ (entries.map (fun p => unmarshalText custom e (zero e) p.2)) = vs.map .ok ∧
        SortedKeys m ∧ ∀ k, lookupKey k m = lookupKey k ((entries.map Prod.fst).zip vs).reverse := by
  have hj : join ',' (entries.map (fun p => p.1 ++ '=' :: p.2)) ≠ [] := by
    cases entries with
    | nil => contradiction
    | cons p ps => cases ps <;> simp [join]
  have hs : splitOn ',' (join ',' (entries.map (fun p => p.1 ++ '=' :: p.2))) = entries.map (fun p => p.1 ++ '=' :: p.2) := by
    apply splitOn_join _ _ (by simpa using hne)
    intro p hp
    obtain ⟨q, hq, rfl⟩ := List.mem_map.1 hp
    have := hk q hq
    simp [this.1, this.2.2]
  have hcut : ∀ p ∈ entries, cut '=' (p.1 ++ '=' :: p.2) = p := fun p hp => cut_join '=' p.1 p.2 (hk p hp).2.1
  have h1 : (entries.map (fun p => p.1 ++ '=' :: p.2)).map (fun el => (cut '=' el).1) = entries.map Prod.fst := by
    rw [List.map_map]; apply List.map_congr_left; intro p hp; simp [hcut p hp]
  have h2 : (entries.map (fun p => p.1 ++ '=' :: p.2)).map (fun el => unmarshalText custom e (zero e) (cut '=' el).2) =
      entries.map (fun p => unmarshalText custom e (zero e) p.2) := by
    rw [List.map_map]; apply List.map_congr_left; intro p hp; simp [hcut p hp]
  simp only [unmarshalText, ne_eq, hj, not_false_eq_true, if_true, hs, h1]
  constructor
  · intro h
    split at h
    · rename_i vs hvs
      injection h with h
      refine ⟨vs, _, h.symm, ?_, sorted_ofEntries _, fun k => lookup_ofEntries k _⟩
      rw [← h2]; exact (parseParts_ok _ _ _).1 hvs
    · cases h
  · rintro ⟨vs, m, rfl, hvs, hsm, hl⟩
    rw [← h2] at hvs
    rw [(parseParts_ok _ _ _).2 hvs]
    simp only [Except.ok.injEq, CVal.map.injEq, Option.some.injEq]
    apply sorted_ext _ _ (sorted_ofEntries _) hsm
    intro k
    rw [lookup_ofEntries, hl]

/-- The old entries are gone and the last of two equal keys counts. -/
example : unmarshalText noCustom (.map true (.int false)) (.map (some [(lit "z", .int 1)])) (lit "b=1,a=2,b=3") = .ok (.map (some [(lit "a", .int 2), (lit "b", .int 3)])) := rfl

/-- C38: other kinds are errors. -/
theorem C38_other (custom : Nat → CVal → Str → Except Stop CVal) (old : CVal) (val : Str) : unmarshalText custom .other old val = .error .err := rfl

/-- C38: a type with its own `UnmarshalText(c, …)` always decides itself; a standard text or JSON unmarshaler only for a non-empty text,
an empty one being handled by the kind of the type (so a list or map type keeps its value). -/
theorem C38_methods (custom : Nat → CVal → Str → Except Stop CVal) (id : Nat) (k e : CTy) (b : Bool) (old : CVal) (val : Str) :
    unmarshalText custom (.ctxText id k) old val = custom id old val ∧
    (val ≠ [] → unmarshalText custom (.stdText id k) old val = custom id old val) ∧
    unmarshalText custom (.stdText id k) old [] = unmarshalText custom k old [] ∧
    unmarshalText custom (.stdText id (.slice e)) old [] = .ok old ∧
    unmarshalText custom (.stdText id (.map b e)) old [] = .ok old := by
  refine ⟨rfl, ?_, ?_, ?_, ?_⟩ <;> simp [unmarshalText]
  intro h1 h2; exact absurd h2 h1

/-- The methods of the elements of a list, and of the values of a map, are called on zero values. -/
example : unmarshalText (fun _ old _ => .ok old) (.slice (.ctxText 1 (.bool false))) (.slice none) (lit "x,y") = .ok (.slice (some [.bool false, .bool false])) ∧
    unmarshalText (fun _ old _ => .ok old) (.map true (.stdText 1 (.int false))) (.map none) (lit "a=x") = .ok (.map (some [(lit "a", .int 0)])) ∧
    unmarshalText (fun _ old _ => .ok old) (.slice (.ctxText 1 (.slice .str))) (.slice none) (lit "x") = .ok (.slice (some [.slice none])) ∧
    unmarshalText (fun _ old _ => .ok old) (.slice (.ctxText 1 (.map true .str))) (.slice none) (lit "x") = .ok (.slice (some [.map none])) := ⟨rfl, rfl, rfl, rfl⟩

example : unmarshalText (fun id _ s => .ok (.str (s ++ if id = 3 then lit "!" else []))) (.stdText 3 .str) (.str []) (lit "hi") = .ok (.str (lit "hi!")) := rfl

/-! ### C70 -/

/-- C70 (violated): a field whose type is a named boolean or integer makes loading panic for every text that parses. -/
theorem C70_named_violated (custom : Nat → CVal → Str → Except Stop CVal) (old : CVal) :
    unmarshalText custom (.bool true) old (lit "true") = .error .panic ∧ unmarshalText custom (.int true) old (lit "80") = .error .panic ∧
    unmarshalText custom (.map false .str) old (lit "a=b") = .error .panic := by
  refine ⟨?_, ?_, ?_⟩
  · simp only [unmarshalText]; rfl
  · simp only [unmarshalText]; rfl
  · simp only [unmarshalText]; rfl

/-- Types whose `Set` cannot panic: no named booleans or integers, maps keyed by plain strings. -/
def Settable : CTy → Bool
  | .bool named | .int named => !named
  | .str | .other => true
  | .slice e => Settable e
  | .map plainKey e => plainKey && Settable e
  | .ctxText _ _ => true
  | .stdText _ k => Settable k

example : [.bool false, .int false, .str, .other, .slice .str, .slice .other, .map true .str, .ctxText 0 (.bool true), .stdText 0 .str].all Settable = true ∧
    [.bool true, .int true, .slice (.int true), .map false .str, .map true (.bool true), .stdText 0 (.int true)].any Settable = false := by decide

theorem parseParts_panic (parse : Str → Except Stop CVal) (h : ∀ s, parse s ≠ .error .panic) (ps : List Str) : parseParts parse ps ≠ .error .panic := by
  induction ps with
  | nil => simp [parseParts]
  | cons p ps ih =>
    simp only [parseParts]
    cases hp : parse p with
    | error e => simp only; intro he; injection he with he; subst he; exact h p hp
    | ok v =>
      cases hr : parseParts parse ps with
      | error e => simp only; intro he; injection he with he; subst he; exact ih hr
      | ok vs => simp

/-- C70, what holds: with such types, methods that do not panic and exported tagged fields, loading never panics. -/
theorem C70_no_panic_partial (custom : Nat → CVal → Str → Except Stop CVal) (hcustom : ∀ id old s, custom id old s ≠ .error .panic) (f : Str → Str)
    (fds : List Field) (vs : List CVal) (h : ∀ fd ∈ fds, fd.tag ≠ [] → fd.exported = true ∧ Settable fd.ty = true) :
    (load custom f fds vs).2 ≠ some .panic := by
  have hu : ∀ (ty : CTy), Settable ty = true → ∀ old val, unmarshalText custom ty old val ≠ .error .panic := by
    intro ty
    induction ty with
    | bool named => intro hs old val; simp [Settable] at hs; subst hs; simp only [unmarshalText]; cases parseBool val <;> simp
    | int named => intro hs old val; simp [Settable] at hs; subst hs; simp only [unmarshalText]; cases parseInt val <;> simp
    | str => intro _ old val; simp [unmarshalText]
    | other => intro _ old val; simp [unmarshalText]
    | ctxText id k _ => intro _ old val; exact hcustom id old val
    | stdText id k ih =>
      intro hs old val
      simp only [unmarshalText]
      split
      · exact hcustom id old val
      · exact ih hs old val
    | slice e ih =>
      intro hs old val
      simp only [unmarshalText]
      split
      · split
        · simp
        · rename_i x hx; intro he; injection he with he; subst he
          exact parseParts_panic _ (fun s => ih hs _ s) _ hx
      · simp
    | map plainKey e ih =>
      intro hs old val
      simp [Settable] at hs
      obtain ⟨rfl, hs⟩ := hs
      simp only [unmarshalText, if_true]
      split
      · split
        · simp
        · rename_i x hx; intro he; injection he with he; subst he
          exact parseParts_panic _ (fun s => ih hs _ _) _ hx
      · simp
  induction fds generalizing vs with
  | nil => simp [load]
  | cons fd fds ih =>
    cases vs with
    | nil => simp [load]
    | cons v vs =>
      simp only [load]
      have hl : loadField custom f fd v ≠ .error .panic := by
        unfold loadField
        by_cases ht : fd.tag = []
        · simp [ht]
        · obtain ⟨hx, hs⟩ := h fd (by simp) ht
          simp only [ht, if_false, hx, if_true]
          split
          · simp
          · split
            · simp
            · exact hu _ hs _ _
      split
      · rename_i e he; intro hh; simp at hh; subst hh; exact hl he
      · exact ih vs (fun fd hfd => h fd (by simp [hfd]))

example : (load noCustom (fun _ => lit "x") [⟨lit "a", .int false, true⟩, ⟨[], .bool true, false⟩] [.int 0, .bool false]).2 = some .err := by rfl

/-! ### concrete cases -/

section
/-- The example of the tests, with the environment empty. -/
example : (load noCustom (fun _ => []) [⟨lit "listen,default=:8080", .str, true⟩, ⟨lit "local,default=true", .bool false, true⟩, ⟨[], .int false, true⟩]
    [.str [], .bool false, .int 7]) = ([.str (lit ":8080"), .bool true, .int 7], none) := by rfl
/-- A list with a default cannot have two elements: the comma ends the option. -/
example : (load noCustom (fun _ => []) [⟨lit "l,default=a,b", .slice .str, true⟩] [.slice none]).2 = some .err := by rfl
/-- Lists are appended to what is there; maps keep the last duplicate. -/
example : unmarshalText noCustom (.slice (.int false)) (.slice (some [.int 1])) (lit "2,-3") = .ok (.slice (some [.int 1, .int 2, .int (-3)])) := by rfl
example : unmarshalText noCustom (.map true .str) (.map none) (lit "b=1,a,b=2=3") = .ok (.map (some [(lit "a", .str []), (lit "b", .str (lit "2=3"))])) := by rfl
example : unmarshalText noCustom (.bool false) (.bool false) (lit "YeS") = .ok (.bool true) := by rfl
end

end Verif.Config

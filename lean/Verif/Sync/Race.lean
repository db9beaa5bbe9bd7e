/-!
# Data races

Go's memory model (https://go.dev/ref/mem): a program without data races behaves as if its goroutines were interleaved; one with a race may do anything
(maps even end the program). Here executions are interleavings of the accesses of goroutines to memory and mutexes. Two accesses of different goroutines
race if they touch the same memory, at least one writes, they are not both atomic, and neither happens before the other.

Goroutines here are all there from the start; that starting one is also an edge of "happens before" is left out, which can only make more races.
-/
set_option autoImplicit false
namespace Verif.Sync.Race

/-- What a goroutine does to shared memory `L` and mutexes `K`. -/
inductive Instr (L K : Type) where
  | read (x : L)
  | write (x : L)
  /-- an access by `sync/atomic`, or by a type that is safe for concurrent use -/
  | atomic (x : L)
  | lock (k : K)
  | unlock (k : K)
  /-- sending one message on a channel, or closing it, when only that is done with it; and receiving -/
  | send (ch : Nat)
  | recv (ch : Nat)
  deriving DecidableEq, Repr

/-- An execution: which goroutine did what, in the order in which it happened. -/
abbrev Trace (L K : Type) := List (Nat × Instr L K)

variable {L K : Type}

/-! ### what may happen -/

section
variable [DecidableEq K]

/-- Who holds a mutex after one more event. -/
def own (o : K → Option Nat) (e : Nat × Instr L K) : K → Option Nat :=
  match e.2 with
  | .lock k => fun k' => if k' = k then some e.1 else o k'
  | .unlock k => fun k' => if k' = k then none else o k'
  | _ => o

def owners (tr : Trace L K) : K → Option Nat := tr.foldl own (fun _ => none)

/-- A mutex is locked only when it is free; unlocking a free one ends the program, and so is no event; nothing is received that was not sent. -/
def allowed (tr : Trace L K) (e : Nat × Instr L K) : Prop :=
  match e.2 with
  | .lock k => owners tr k = none
  | .unlock k => owners tr k ≠ none
  | .recv ch => ∃ g, (g, .send ch) ∈ tr
  | _ => True

inductive Valid : Trace L K → Prop where
  | nil : Valid []
  | snoc {tr : Trace L K} {e : Nat × Instr L K} : Valid tr → allowed tr e → Valid (tr ++ [e])

end

/-- What one goroutine did. -/
def proj (g : Nat) (tr : Trace L K) : List (Instr L K) := (tr.filter (fun e => e.1 == g)).map (·.2)

/-! ### the order -/

/-- `i` happens before `j`: by the order of a goroutine, because a mutex was unlocked and then locked, or by a message. `at` says whether atomic accesses order things, too
(in Go they do if the second sees the effect of the first). -/
inductive HB («at» : Bool) (tr : Trace L K) : Nat → Nat → Prop where
  | po {i j g : Nat} {a b : Instr L K} : i < j → tr[i]? = some (g, a) → tr[j]? = some (g, b) → HB «at» tr i j
  | mutex {i j g g' : Nat} {k : K} : i < j → tr[i]? = some (g, .unlock k) → tr[j]? = some (g', .lock k) → HB «at» tr i j
  | atom {i j g g' : Nat} {x : L} : «at» = true → i < j → tr[i]? = some (g, .atomic x) → tr[j]? = some (g', .atomic x) → HB «at» tr i j
  | chan {i j g g' ch : Nat} : i < j → tr[i]? = some (g, .send ch) → tr[j]? = some (g', .recv ch) → HB «at» tr i j
  | trans {i j l : Nat} : HB «at» tr i j → HB «at» tr j l → HB «at» tr i l

/-- The two touch the same memory, and not both only read it, or both atomically. -/
inductive Conflict : Instr L K → Instr L K → Prop where
  | ww (x : L) : Conflict (.write x) (.write x)
  | wr (x : L) : Conflict (.write x) (.read x)
  | rw (x : L) : Conflict (.read x) (.write x)
  | wa (x : L) : Conflict (.write x) (.atomic x)
  | aw (x : L) : Conflict (.atomic x) (.write x)
  | ra (x : L) : Conflict (.read x) (.atomic x)
  | ar (x : L) : Conflict (.atomic x) (.read x)

/-- A data race. -/
def Race («at» : Bool) (tr : Trace L K) : Prop :=
  ∃ i j g g' a b, i < j ∧ g ≠ g' ∧ tr[i]? = some (g, a) ∧ tr[j]? = some (g', b) ∧ Conflict a b ∧ ¬ HB «at» tr i j

theorem HB.lt {«at» : Bool} {tr : Trace L K} {i j : Nat} (h : HB «at» tr i j) : i < j := by
  induction h with
  | po h | mutex h | chan h | atom _ h => exact h
  | trans _ _ h1 h2 => omega

/-- Two accesses of different goroutines, one right after the other: nothing orders them. -/
theorem adjacent («at» : Bool) (tr : Trace L K) (i g g' : Nat) (a b : Instr L K) (hg : g ≠ g') (hi : tr[i]? = some (g, a)) (hj : tr[i + 1]? = some (g', b)) (hc : Conflict a b) :
    Race «at» tr := by
  refine ⟨i, i + 1, g, g', a, b, by omega, hg, hi, hj, hc, fun h => ?_⟩
  have : ∀ p q, HB «at» tr p q → p = i → q = i + 1 → False := by
    intro p q h
    induction h with
    | po _ h1 h2 =>
      intro hp hq
      subst hp; subst hq
      rw [hi] at h1; rw [hj] at h2
      simp only [Option.some.injEq, Prod.mk.injEq] at h1 h2
      exact hg (h1.1.trans h2.1.symm)
    | mutex _ h1 h2 | chan _ h1 h2 =>
      intro hp hq
      subst hp; subst hq
      rw [hi] at h1
      simp only [Option.some.injEq, Prod.mk.injEq] at h1
      rw [h1.2] at hc
      cases hc
    | atom _ _ h1 h2 =>
      intro hp hq
      subst hp; subst hq
      rw [hi] at h1; rw [hj] at h2
      simp only [Option.some.injEq, Prod.mk.injEq] at h1 h2
      rw [h1.2, h2.2] at hc
      cases hc
    | trans h1 h2 _ _ =>
      intro hp hq
      have := h1.lt
      have := h2.lt
      omega
  exact this _ _ h rfl rfl

/-! ### programs -/

/-- What a method may do to the memory it shares, whatever the values are. -/
inductive Code (L K : Type) where
  | nil
  | i (a : Instr L K)
  | seq (a b : Code L K)
  | alt (a b : Code L K)
  | many (a : Code L K)
  /-- `Lock(); defer Unlock()`, and a body that takes no other mutex: it is unlocked also when the body panics. -/
  | within (k : K) (body : Code L K)

/-- The accesses a call may make, in order. -/
inductive Runs : Code L K → List (Instr L K) → Prop where
  | nil : Runs .nil []
  | i (a : Instr L K) : Runs (.i a) [a]
  | seq {a b : Code L K} {r s : List (Instr L K)} : Runs a r → Runs b s → Runs (.seq a b) (r ++ s)
  | left {a b : Code L K} {r : List (Instr L K)} : Runs a r → Runs (.alt a b) r
  | right {a b : Code L K} {r : List (Instr L K)} : Runs b r → Runs (.alt a b) r
  | stop {a : Code L K} : Runs (.many a) []
  | again {a : Code L K} {r s : List (Instr L K)} : Runs a r → Runs (.many a) s → Runs (.many a) (r ++ s)
  | within {k : K} {a : Code L K} {p r : List (Instr L K)} : Runs a r → p <+: r → Runs (.within k a) (.lock k :: p ++ [.unlock k])

/-- A goroutine: any number of calls of methods, one after the other. -/
inductive Calls (M : Code L K → Prop) : List (Instr L K) → Prop where
  | nil : Calls M []
  | call {c : Code L K} {r s : List (Instr L K)} : M c → Runs c r → Calls M s → Calls M (r ++ s)

/-- An execution of goroutines that only call the methods `M`; each may be anywhere in a call. -/
structure Exec [DecidableEq K] (M : Code L K → Prop) (tr : Trace L K) : Prop where
  valid : Valid tr
  calls : ∀ g, ∃ r, Calls M r ∧ proj g tr <+: r

/-! ### a discipline -/

/-- How a place in memory is protected. -/
inductive Guard (K : Type) where
  | by (k : K)
  | atomic
  /-- it is not written after the object was made -/
  | fixed

variable [DecidableEq K]

/-- The mutexes a goroutine holds, after one more access. -/
def next (h : List K) : Instr L K → List K
  | .lock k => k :: h
  | .unlock k => h.filter (fun k' => decide (k' ≠ k))
  | _ => h

def after (h : List K) (r : List (Instr L K)) : List K := r.foldl next h

/-- The access respects the guard. -/
def ok (G : L → Guard K) (h : List K) : Instr L K → Bool
  | .read x => match G x with | .by k => decide (k ∈ h) | .atomic => false | .fixed => true
  | .write x => match G x with | .by k => decide (k ∈ h) | _ => false
  | .atomic x => match G x with | .atomic => true | _ => false
  | .lock k => decide (k ∉ h)
  | .unlock k => decide (k ∈ h)
  | _ => true

def safe (G : L → Guard K) : List K → List (Instr L K) → Prop
  | _, [] => True
  | h, a :: r => ok G h a = true ∧ safe G (next h a) r

/-- There are only accesses to memory in it. -/
def Code.plain : Code L K → Bool
  | .nil => true
  | .i (.lock _) => false
  | .i (.unlock _) => false
  | .i _ => true
  | .seq a b => a.plain && b.plain
  | .alt a b => a.plain && b.plain
  | .many a => a.plain
  | .within .. => false

/-- Does the method respect the guards, and what does it hold afterwards? -/
def check (G : L → Guard K) (h : List K) : Code L K → Option (List K)
  | .nil => some h
  | .i a => if ok G h a then some (next h a) else none
  | .seq a b => (check G h a).bind (fun h' => check G h' b)
  | .alt a b => if check G h a = check G h b then check G h a else none
  | .many a => if check G h a = some h then some h else none
  | .within k a => if k ∉ h ∧ a.plain = true ∧ check G (k :: h) a = some (k :: h) then some h else none

theorem safe_append (G : L → Guard K) (r s : List (Instr L K)) : ∀ h, safe G h (r ++ s) ↔ safe G h r ∧ safe G (after h r) s := by
  induction r with
  | nil => intro h; simp [safe, after]
  | cons a r ih =>
    intro h
    have : after h (a :: r) = after (next h a) r := rfl
    simp only [List.cons_append, safe, ih, this, and_assoc]

theorem after_append (h : List K) (r s : List (Instr L K)) : after h (r ++ s) = after (after h r) s := by simp [after]

theorem plain_after {c : Code L K} {r : List (Instr L K)} (hr : Runs c r) : c.plain = true → ∀ p, p <+: r → ∀ h : List K, after h p = h := by
  have key : c.plain = true → ∀ a ∈ r, ∀ h : List K, next h a = h := by
    induction hr with
    | nil => simp
    | i a =>
      intro hp b hb h
      simp only [List.mem_singleton] at hb
      subst hb
      cases b <;> simp_all [Code.plain, next]
    | seq _ _ iha ihb =>
      intro hp b hb h
      simp only [Code.plain, Bool.and_eq_true] at hp
      rcases List.mem_append.1 hb with hb | hb
      · exact iha hp.1 b hb h
      · exact ihb hp.2 b hb h
    | left _ ih =>
      intro hp
      simp only [Code.plain, Bool.and_eq_true] at hp
      exact ih hp.1
    | right _ ih =>
      intro hp
      simp only [Code.plain, Bool.and_eq_true] at hp
      exact ih hp.2
    | stop => simp
    | again _ _ iha ihb =>
      intro hp b hb h
      have hp' := hp
      simp only [Code.plain] at hp
      rcases List.mem_append.1 hb with hb | hb
      · exact iha hp b hb h
      · exact ihb hp' b hb h
    | within => intro hp; simp [Code.plain] at hp
  intro hp p hpr h
  have hsub : ∀ a ∈ p, a ∈ r := fun a ha => hpr.subset ha
  clear hpr
  induction p generalizing h with
  | nil => rfl
  | cons a p ih =>
    have h1 : after h (a :: p) = after (next h a) p := rfl
    rw [h1, key hp a (hsub a (by simp)) h]
    exact ih h (fun b hb => hsub b (by simp [hb]))

theorem check_sound (G : L → Guard K) {c : Code L K} {r : List (Instr L K)} (hr : Runs c r) :
    ∀ h h', check G h c = some h' → safe G h r ∧ after h r = h' := by
  induction hr with
  | nil => intro h h' hc; simp only [check, Option.some.injEq] at hc; exact ⟨trivial, hc⟩
  | i a =>
    intro h h' hc
    simp only [check] at hc
    split at hc
    · next ho =>
      simp only [Option.some.injEq] at hc
      exact ⟨⟨ho, trivial⟩, hc⟩
    · cases hc
  | seq _ _ iha ihb =>
    intro h h' hc
    simp only [check, Option.bind_eq_some_iff] at hc
    obtain ⟨m, h1, h2⟩ := hc
    have ha := iha h m h1
    have hb := ihb m h' h2
    rw [safe_append, after_append, ha.2]
    exact ⟨⟨ha.1, hb.1⟩, hb.2⟩
  | left _ ih =>
    intro h h' hc
    simp only [check] at hc
    split at hc
    · exact ih h h' hc
    · cases hc
  | right _ ih =>
    intro h h' hc
    simp only [check] at hc
    split at hc
    · next he => exact ih h h' (he ▸ hc)
    · cases hc
  | stop =>
    intro h h' hc
    simp only [check] at hc
    split at hc
    · simp only [Option.some.injEq] at hc; exact ⟨trivial, hc⟩
    · cases hc
  | again _ _ iha ihb =>
    intro h h' hc
    have hc' := hc
    simp only [check] at hc
    split at hc
    · next he =>
      have ha := iha h h he
      have hb := ihb h h' hc'
      rw [safe_append, after_append, ha.2]
      exact ⟨⟨ha.1, hb.1⟩, hb.2⟩
    · cases hc
  | @within k a p r hra hpr ih =>
    intro h h' hc
    simp only [check] at hc
    split at hc
    · next he =>
      obtain ⟨hk, hp, hch⟩ := he
      simp only [Option.some.injEq] at hc
      have hs := (ih _ _ hch).1
      obtain ⟨t, ht⟩ := hpr
      rw [← ht, safe_append] at hs
      have hpre := plain_after hra hp p ⟨t, ht⟩ (k :: h)
      have hf : (k :: h).filter (fun k' => decide (k' ≠ k)) = h := by
        simp only [List.filter_cons, ne_eq, not_true_eq_false, decide_false, Bool.false_eq_true, if_false]
        exact List.filter_eq_self.2 (fun b hb => by simp; intro hbk; exact hk (hbk ▸ hb))
      constructor
      · show ok G h (.lock k) = true ∧ safe G (k :: h) (p ++ [.unlock k])
        refine ⟨by simpa [ok] using hk, ?_⟩
        rw [safe_append, hpre]
        exact ⟨hs.1, by simp [ok], trivial⟩
      · show after (k :: h) (p ++ [.unlock k]) = h'
        rw [after_append, hpre, ← hc]
        exact hf
    · cases hc

/-! ### the discipline is enough -/

theorem calls_safe (G : L → Guard K) {M : Code L K → Prop} (hM : ∀ c, M c → check G [] c = some []) {r : List (Instr L K)} (hr : Calls M r) : safe G [] r ∧ after [] r = [] := by
  induction hr with
  | nil => exact ⟨trivial, rfl⟩
  | call hm hrun _ ih =>
    have hc := check_sound G hrun [] [] (hM _ hm)
    rw [safe_append, after_append, hc.2]
    exact ⟨⟨hc.1, ih.1⟩, ih.2⟩

theorem proj_snoc (g : Nat) (tr : Trace L K) (e : Nat × Instr L K) : proj g (tr ++ [e]) = if e.1 = g then proj g tr ++ [e.2] else proj g tr := by
  unfold proj
  rw [List.filter_append, List.map_append]
  by_cases h : e.1 = g <;> simp [List.filter_cons, h]

theorem owners_snoc (tr : Trace L K) (e : Nat × Instr L K) : owners (tr ++ [e]) = own (owners tr) e := by simp [owners]

/-- If all respect the guards, a mutex belongs to whoever locked it and did not unlock it yet. -/
theorem owner_iff (G : L → Guard K) {tr : Trace L K} (hv : Valid tr) : (∀ g, safe G [] (proj g tr)) → ∀ k g, owners tr k = some g ↔ k ∈ after [] (proj g tr) := by
  induction hv with
  | nil => intro _ k g; simp [owners, proj, after]
  | @snoc tr e hv ha ih =>
    intro hs k g
    have hs' : ∀ g, safe G [] (proj g tr) := by
      intro g
      have := hs g
      rw [proj_snoc] at this
      split at this
      · exact ((safe_append G _ _ _).1 this).1
      · exact this
    have ih := ih hs'
    have hok : ok G (after [] (proj e.1 tr)) e.2 = true := by
      have := hs e.1
      rw [proj_snoc, if_pos rfl, safe_append] at this
      exact this.2.1
    rw [owners_snoc, proj_snoc]
    obtain ⟨g', a⟩ := e
    simp only at *
    cases a with
    | read x => simp only [own]; split <;> simp [after_append, after, next, ih] <;> rfl
    | write x => simp only [own]; split <;> simp [after_append, after, next, ih] <;> rfl
    | atomic x | send ch | recv ch => simp only [own]; split <;> simp [after_append, after, next, ih] <;> rfl
    | lock k' =>
      simp only [own]
      by_cases hk : k = k'
      · subst hk
        simp only [if_true, Option.some.injEq]
        simp only [allowed] at ha
        constructor
        · intro hg
          subst hg
          rw [if_pos rfl, after_append]
          simp [after, next]
        · intro hm
          split at hm
          · next he => exact he
          · have := (ih k g).2 hm
            rw [ha] at this
            cases this
      · simp only [if_neg hk, ih]
        split
        · rw [after_append]; simp [after, next, hk]
        · rfl
    | unlock k' =>
      simp only [own]
      simp only [ok, decide_eq_true_eq] at hok
      by_cases hk : k = k'
      · subst hk
        simp only [if_true]
        constructor
        · intro h; cases h
        · intro hm
          split at hm
          · rw [after_append] at hm
            simp [after, next] at hm
          · next hne =>
            have h1 := (ih k g).2 hm
            have h2 := (ih k g').2 hok
            rw [h1] at h2
            simp only [Option.some.injEq] at h2
            exact absurd h2.symm hne
      · simp only [if_neg hk, ih]
        split
        · rw [after_append]; simp [after, next, hk]
        · rfl

/-- The first `n` events of an execution are one. -/
theorem Valid.take {tr : Trace L K} (h : Valid tr) (n : Nat) : Valid (tr.take n) := by
  induction h with
  | nil => simpa using Valid.nil
  | @snoc tr e hv ha ih =>
    by_cases hn : n ≤ tr.length
    · rw [List.take_append_of_le_length hn]; exact ih
    · rw [List.take_of_length_le (by simp; omega)]; exact .snoc hv ha

theorem proj_prefix (g : Nat) (tr : Trace L K) (n : Nat) : proj g (tr.take n) <+: proj g tr := by
  unfold proj
  exact List.IsPrefix.map _ (List.IsPrefix.filter _ (List.take_prefix n tr))

theorem safe_prefix (G : L → Guard K) {h : List K} {p r : List (Instr L K)} (hp : p <+: r) (hs : safe G h r) : safe G h p := by
  obtain ⟨t, ht⟩ := hp
  rw [← ht, safe_append] at hs
  exact hs.1

theorem take_succ {α : Type} {l : List α} {n : Nat} {a : α} (h : l[n]? = some a) : l.take (n + 1) = l.take n ++ [a] := by
  rw [List.take_add_one, h]; rfl

/-- Between two times, a mutex changed hands: the first goroutine unlocked it, then the other locked it. -/
theorem handover {tr : Trace L K} (hv : Valid tr) (hu : ∀ n g k, tr[n]? = some (g, .unlock k) → owners (tr.take n) k = some g) (k : K) (g g' : Nat) (hg : g ≠ g') (i : Nat) :
    ∀ d, i + d ≤ tr.length → owners (tr.take i) k = some g → owners (tr.take (i + d)) k = some g' →
      ∃ p q, i ≤ p ∧ p < q ∧ q < i + d ∧ tr[p]? = some (g, .unlock k) ∧ tr[q]? = some (g', .lock k) := by
  have vt : ∀ n e, tr[n]? = some e → allowed (tr.take n) e := by
    intro n e hn
    have := hv.take (n + 1)
    rw [take_succ hn] at this
    generalize hx : tr.take n ++ [e] = x at this
    cases this with
    | nil => simp at hx
    | snoc _ ha =>
      have := List.append_inj' hx rfl
      simp only [List.cons.injEq, and_true] at this
      rw [this.1, this.2]
      exact ha
  -- either it is still with the first, or was unlocked since
  have key : ∀ d, i + d ≤ tr.length → owners (tr.take i) k = some g →
      owners (tr.take (i + d)) k = some g ∨ ∃ p, i ≤ p ∧ p < i + d ∧ tr[p]? = some (g, .unlock k) ∧
        ∀ g', owners (tr.take (i + d)) k = some g' → ∃ q, p < q ∧ q < i + d ∧ tr[q]? = some (g', .lock k) := by
    intro d
    induction d with
    | zero => intro _ h; exact .inl h
    | succ d ih =>
      intro hd h
      have hlt : i + d < tr.length := by omega
      obtain ⟨e, he⟩ : ∃ e, tr[i + d]? = some e := ⟨tr[i + d], List.getElem?_eq_getElem hlt⟩
      have hstep : owners (tr.take (i + (d + 1))) k = own (owners (tr.take (i + d))) e k := by
        have : i + (d + 1) = i + d + 1 := by omega
        rw [this, take_succ he, owners_snoc]
      have hall := vt _ _ he
      rw [hstep]
      obtain ⟨g2, a⟩ := e
      rcases ih (by omega) h with h1 | ⟨p, hp1, hp2, hp3, hp4⟩
      · cases a with
        | read | write | atomic | send | recv => exact .inl h1
        | lock k' =>
          simp only [allowed] at hall
          simp only [own]
          by_cases hk : k = k'
          · subst hk; rw [h1] at hall; cases hall
          · rw [if_neg hk]; exact .inl h1
        | unlock k' =>
          simp only [own]
          by_cases hk : k = k'
          · subst hk
            have := hu _ _ _ he
            rw [h1] at this
            simp only [Option.some.injEq] at this
            subst this
            exact .inr ⟨i + d, by omega, by omega, he, by simp⟩
          · rw [if_neg hk]; exact .inl h1
      · refine .inr ⟨p, hp1, by omega, hp3, ?_⟩
        intro g' hg'
        have old : owners (tr.take (i + d)) k = some g' → ∃ q, p < q ∧ q < i + (d + 1) ∧ tr[q]? = some (g', .lock k) := by
          intro h
          obtain ⟨q, h1, h2, h3⟩ := hp4 g' h
          exact ⟨q, h1, by omega, h3⟩
        cases a with
        | read | write | atomic | send | recv => exact old hg'
        | lock k' =>
          simp only [own] at hg'
          by_cases hk : k = k'
          · subst hk
            simp only [if_true, Option.some.injEq] at hg'
            subst hg'
            exact ⟨i + d, by omega, by omega, he⟩
          · rw [if_neg hk] at hg'; exact old hg'
        | unlock k' =>
          simp only [own] at hg'
          by_cases hk : k = k'
          · subst hk; simp at hg'
          · rw [if_neg hk] at hg'; exact old hg'
  intro d hd h1 h2
  rcases key d hd h1 with h | ⟨p, hp1, hp2, hp3, hp4⟩
  · rw [h2] at h
    simp only [Option.some.injEq] at h
    exact absurd h.symm hg
  · obtain ⟨q, h3, h4, h5⟩ := hp4 g' h2
    exact ⟨p, q, hp1, h3, h4, hp3, h5⟩

/-- If every place has a guard that all methods respect, no execution has a race. -/
theorem no_race (G : L → Guard K) (M : Code L K → Prop) (hM : ∀ c, M c → check G [] c = some []) {tr : Trace L K} (ht : Exec M tr) («at» : Bool) : ¬ Race «at» tr := by
  have hs : ∀ g, safe G [] (proj g tr) := by
    intro g
    obtain ⟨r, hr, hp⟩ := ht.calls g
    exact safe_prefix G hp (calls_safe G hM hr).1
  have hst : ∀ n g, safe G [] (proj g (tr.take n)) := fun n g => safe_prefix G (proj_prefix g tr n) (hs g)
  have hown : ∀ n k g, owners (tr.take n) k = some g ↔ k ∈ after [] (proj g (tr.take n)) := fun n => owner_iff G (ht.valid.take n) (hst n)
  have hok : ∀ n g a, tr[n]? = some (g, a) → ok G (after [] (proj g (tr.take n))) a = true := by
    intro n g a h
    have := hst (n + 1) g
    rw [take_succ h, proj_snoc, if_pos rfl, safe_append] at this
    exact this.2.1
  rintro ⟨i, j, g, g', a, b, hij, hg, hi, hj, hc, hnb⟩
  -- both are made with the same mutex held, at least one being a write
  have held : ∃ k, owners (tr.take i) k = some g ∧ owners (tr.take j) k = some g' := by
    have h1 := hok _ _ _ hi
    have h2 := hok _ _ _ hj
    cases hc with
    | ww x | wr x | rw x =>
      simp only [ok] at h1 h2
      cases hx : G x with
      | «by» k =>
        rw [hx] at h1 h2
        simp only [decide_eq_true_eq] at h1 h2
        exact ⟨k, (hown _ _ _).2 h1, (hown _ _ _).2 h2⟩
      | atomic => rw [hx] at h1 h2; simp at h1
      | fixed => rw [hx] at h1 h2; simp at h1 h2
    | wa x | aw x | ra x | ar x =>
      simp only [ok] at h1 h2
      cases hx : G x <;> rw [hx] at h1 h2 <;> simp at h1 h2
  obtain ⟨k, hk1, hk2⟩ := held
  have hjl : j < tr.length := by
    rcases Nat.lt_or_ge j tr.length with h | h
    · exact h
    · rw [List.getElem?_eq_none h] at hj; cases hj
  have hu : ∀ n g k, tr[n]? = some (g, .unlock k) → owners (tr.take n) k = some g := by
    intro n g k h
    have := hok _ _ _ h
    simp only [ok, decide_eq_true_eq] at this
    exact (hown _ _ _).2 this
  obtain ⟨p, q, h1, h2, h3, h4, h5⟩ := handover ht.valid hu k g g' hg i (j - i) (by omega) hk1 (by rwa [Nat.add_sub_cancel' (by omega)])
  have hip : i ≠ p := by
    intro h
    subst h
    rw [hi] at h4
    simp only [Option.some.injEq, Prod.mk.injEq] at h4
    rw [h4.2] at hc
    cases hc
  have hqj : q ≠ j := by omega
  exact hnb (.trans (.trans (.po (by omega) hi h4) (.mutex h2 h4 h5)) (.po (by omega) h5 hj))

end Verif.Sync.Race

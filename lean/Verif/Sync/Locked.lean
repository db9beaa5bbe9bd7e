import Verif.Base
/-!
# Objects whose methods hold a mutex (for C164)

The models of `caches`, `storage` and others take a method that begins with `Lock` and ends with a deferred `Unlock` for one step. Here
a method is what it is in Go: any number of reads and writes of the shared memory, between which other goroutines go on. That the
mutex makes one step of it is a theorem (`one_by_one`), whatever the methods do, also if they panic. Methods that take no lock are
allowed, as long as they only read; nothing is said about what they return.
-/
set_option autoImplicit false
namespace Verif.Sync.Locked

/-- The body of a method: accesses to the shared memory `σ`, one after the other. Each reads the memory and changes it; what comes next
depends on what was read. utils/caches/lru.go L34-107. -/
inductive Body (σ ρ : Type) where
  | ret (r : ρ)
  | step (w : σ → σ) (k : σ → Body σ ρ)

variable {σ ρ α β : Type}

/-- The body run alone. -/
def Body.run : Body σ ρ → σ → σ × ρ
  | .ret r, s => (s, r)
  | .step w k, s => (k s).run (w s)

/-- One body after the other. -/
def Body.bind : Body σ α → (α → Body σ β) → Body σ β
  | .ret a, f => f a
  | .step w k, f => .step w fun s => (k s).bind f

instance : Monad (Body σ) where
  pure := .ret
  bind := .bind

theorem run_bind (m : Body σ α) (f : α → Body σ β) (s : σ) : (m.bind f).run s = (f (m.run s).2).run (m.run s).1 := by
  induction m generalizing s with
  | ret a => rfl
  | step w k ih => exact ih s (w s)

/-- The body changes nothing. -/
def Body.ReadOnly : Body σ ρ → Prop
  | .ret _ => True
  | .step w k => (∀ s, w s = s) ∧ ∀ s, (k s).ReadOnly

/-- An object: what its methods do, and whether they hold the mutex meanwhile. -/
structure Obj (σ Op ρ : Type) where
  body : Op → Body σ ρ
  locks : Op → Bool

variable {Op : Type}

/-- Where a goroutine is. -/
inductive Thr (σ Op ρ : Type) where
  | idle
  /-- the method is called; if it takes the mutex, it waits for it -/
  | called (op : Op)
  /-- in the method, holding the mutex if it takes it; what remains to be done -/
  | inside (op : Op) (b : Body σ ρ)

/-- What happens. -/
inductive Ev (Op ρ : Type) where
  | call (t : Nat) (op : Op)
  | enter (t : Nat) (op : Op)
  | act (t : Nat)
  | exit (t : Nat) (op : Op) (r : ρ)

/-- Who does it. -/
def Ev.who : Ev Op ρ → Nat
  | .call t _ => t
  | .enter t _ => t
  | .act t => t
  | .exit t _ _ => t

/-- The shared memory, who holds the mutex, and the goroutines. -/
structure St (σ Op ρ : Type) where
  sh : σ
  lock : Option Nat
  th : Nat → Thr σ Op ρ

/-- Goroutine `t` is now at `x`. -/
def put (f : Nat → Thr σ Op ρ) (t : Nat) (x : Thr σ Op ρ) : Nat → Thr σ Op ρ := fun u => if u = t then x else f u

@[simp] theorem put_same (f : Nat → Thr σ Op ρ) (t : Nat) (x : Thr σ Op ρ) : put f t x t = x := by simp [put]
theorem put_other (f : Nat → Thr σ Op ρ) (t : Nat) (x : Thr σ Op ρ) (u : Nat) (h : u ≠ t) : put f t x u = f u := by simp [put, h]

/-- Any goroutine may call any method when it is in none; `Lock` returns when the mutex is free; `Unlock` is deferred, so that it is
called however the body ends. -/
inductive Step (O : Obj σ Op ρ) : St σ Op ρ → Ev Op ρ → St σ Op ρ → Prop where
  | call (s : St σ Op ρ) (t : Nat) (op : Op) : s.th t = .idle → Step O s (.call t op) { s with th := put s.th t (.called op) }
  | lock (s : St σ Op ρ) (t : Nat) (op : Op) : s.th t = .called op → O.locks op = true → s.lock = none →
      Step O s (.enter t op) { s with lock := some t, th := put s.th t (.inside op (O.body op)) }
  | start (s : St σ Op ρ) (t : Nat) (op : Op) : s.th t = .called op → O.locks op = false →
      Step O s (.enter t op) { s with th := put s.th t (.inside op (O.body op)) }
  | act (s : St σ Op ρ) (t : Nat) (op : Op) (w : σ → σ) (k : σ → Body σ ρ) : s.th t = .inside op (.step w k) →
      Step O s (.act t) { s with sh := w s.sh, th := put s.th t (.inside op (k s.sh)) }
  | exit (s : St σ Op ρ) (t : Nat) (op : Op) (r : ρ) : s.th t = .inside op (.ret r) →
      Step O s (.exit t op r) { s with lock := if O.locks op then none else s.lock, th := put s.th t .idle }

/-- Executions, from a fresh object. -/
inductive Exec (O : Obj σ Op ρ) (s0 : σ) : List (Ev Op ρ) → St σ Op ρ → Prop where
  | init : Exec O s0 [] ⟨s0, none, fun _ => .idle⟩
  | snoc {tr : List (Ev Op ρ)} {s s' : St σ Op ρ} {e : Ev Op ρ} : Exec O s0 tr s → Step O s e s' → Exec O s0 (tr ++ [e]) s'

/-- The calls that returned, in the order in which they released the mutex, with what they returned; those that do not take it are left out. -/
def finished (O : Obj σ Op ρ) (tr : List (Ev Op ρ)) : List (Op × ρ) :=
  tr.filterMap fun e => match e with
    | .exit _ op r => if O.locks op then some (op, r) else none
    | _ => none

/-- The methods called one after the other by one goroutine. -/
def seq (O : Obj σ Op ρ) : σ → List Op → σ × List ρ
  | s, [] => (s, [])
  | s, op :: ops => ((seq O ((O.body op).run s).1 ops).1, ((O.body op).run s).2 :: (seq O ((O.body op).run s).1 ops).2)

theorem seq_snoc (O : Obj σ Op ρ) (s : σ) (ops : List Op) (op : Op) :
    seq O s (ops ++ [op]) = (((O.body op).run (seq O s ops).1).1, (seq O s ops).2 ++ [((O.body op).run (seq O s ops).1).2]) := by
  induction ops generalizing s with
  | nil => rfl
  | cons o ops ih => simp [seq, ih]

/-- What holds at any time. -/
structure Inv (O : Obj σ Op ρ) (s0 : σ) (tr : List (Ev Op ρ)) (s : St σ Op ρ) : Prop where
  answers : (seq O s0 ((finished O tr).map (·.1))).2 = (finished O tr).map (·.2)
  free : s.lock = none → s.sh = (seq O s0 ((finished O tr).map (·.1))).1
  held : ∀ t, s.lock = some t → ∃ op b, s.th t = .inside op b ∧ O.locks op = true ∧
    b.run s.sh = (O.body op).run (seq O s0 ((finished O tr).map (·.1))).1
  holder : ∀ t op b, s.th t = .inside op b → O.locks op = true → s.lock = some t
  readers : ∀ t op b, s.th t = .inside op b → O.locks op = false → b.ReadOnly

theorem finished_snoc (O : Obj σ Op ρ) (tr : List (Ev Op ρ)) (e : Ev Op ρ) : finished O (tr ++ [e]) = finished O tr ++ finished O [e] := by
  simp [finished, List.filterMap_append]

theorem inv (O : Obj σ Op ρ) (hro : ∀ op, O.locks op = false → (O.body op).ReadOnly) (s0 : σ) (tr : List (Ev Op ρ)) (s : St σ Op ρ) (h : Exec O s0 tr s) :
    Inv O s0 tr s := by
  induction h with
  | init => exact ⟨rfl, fun _ => rfl, fun t ht => (nomatch ht), fun t op b h => (nomatch h), fun t op b h => (nomatch h)⟩
  | @snoc tr s s' e he hs ih =>
    cases hs with
    | call t op hi =>
      have hf : finished O (tr ++ [.call t op]) = finished O tr := by simp [finished]
      refine ⟨hf ▸ ih.answers, hf ▸ ih.free, ?_, ?_, ?_⟩
      · intro u hu
        obtain ⟨op', b, h1, h2, h3⟩ := ih.held u hu
        have hne : u ≠ t := by rintro rfl; rw [hi] at h1; cases h1
        exact ⟨op', b, (put_other _ _ _ _ hne).trans h1, h2, hf ▸ h3⟩
      · intro u op' b hu hl
        by_cases hne : u = t
        · subst hne; simp at hu
        · exact ih.holder u op' b (by rw [← hu]; exact (put_other _ _ _ _ hne).symm) hl
      · intro u op' b hu hl
        by_cases hne : u = t
        · subst hne; simp at hu
        · exact ih.readers u op' b (by rw [← hu]; exact (put_other _ _ _ _ hne).symm) hl
    | lock t op hc hl hfree =>
      have hf : finished O (tr ++ [.enter t op]) = finished O tr := by simp [finished]
      refine ⟨hf ▸ ih.answers, fun h => (nomatch h), ?_, ?_, ?_⟩
      · intro u hu
        injection hu with hu; subst hu
        exact ⟨op, O.body op, put_same _ _ _, hl, by rw [hf, ih.free hfree]⟩
      · intro u op' b hu hl'
        by_cases hne : u = t
        · rw [hne]
        · have := ih.holder u op' b (by rw [← hu]; exact (put_other _ _ _ _ hne).symm) hl'
          rw [hfree] at this; cases this
      · intro u op' b hu hl'
        by_cases hne : u = t
        · subst hne
          simp only [put_same] at hu
          injection hu with h1 h2; subst h1
          rw [hl] at hl'; cases hl'
        · exact ih.readers u op' b (by rw [← hu]; exact (put_other _ _ _ _ hne).symm) hl'
    | start t op hc hl =>
      have hf : finished O (tr ++ [.enter t op]) = finished O tr := by simp [finished]
      refine ⟨hf ▸ ih.answers, hf ▸ ih.free, ?_, ?_, ?_⟩
      · intro u hu
        obtain ⟨op', b, h1, h2, h3⟩ := ih.held u hu
        have hne : u ≠ t := by rintro rfl; rw [hc] at h1; cases h1
        exact ⟨op', b, (put_other _ _ _ _ hne).trans h1, h2, hf ▸ h3⟩
      · intro u op' b hu hl'
        by_cases hne : u = t
        · subst hne
          simp only [put_same] at hu
          injection hu with h1 h2; subst h1
          rw [hl] at hl'; cases hl'
        · exact ih.holder u op' b (by rw [← hu]; exact (put_other _ _ _ _ hne).symm) hl'
      · intro u op' b hu hl'
        by_cases hne : u = t
        · subst hne
          simp only [put_same] at hu
          injection hu with h1 h2; subst h1; subst h2
          exact hro op hl
        · exact ih.readers u op' b (by rw [← hu]; exact (put_other _ _ _ _ hne).symm) hl'
    | act t op w k hin =>
      have hf : finished O (tr ++ [.act t]) = finished O tr := by simp [finished]
      cases hl : O.locks op with
      | true =>
        have hown := ih.holder t op _ hin hl
        obtain ⟨op', b, h1, h2, h3⟩ := ih.held t hown
        rw [hin] at h1; injection h1 with h1 h1'; subst h1; subst h1'
        refine ⟨hf ▸ ih.answers, fun h => ?_, ?_, ?_, ?_⟩
        · simp only at h; rw [hown] at h; cases h
        · intro u hu
          have hu : s.lock = some u := hu
          rw [hown] at hu; injection hu with hu; subst hu
          exact ⟨op, k s.sh, put_same _ _ _, hl, by rw [hf, ← h3]; rfl⟩
        · intro u op' b hu hl'
          by_cases hne : u = t
          · rw [hne]; exact hown
          · exact ih.holder u op' b (by rw [← hu]; exact (put_other _ _ _ _ hne).symm) hl'
        · intro u op' b hu hl'
          by_cases hne : u = t
          · subst hne
            simp only [put_same] at hu
            injection hu with h1 h2; subst h1
            rw [hl] at hl'; cases hl'
          · exact ih.readers u op' b (by rw [← hu]; exact (put_other _ _ _ _ hne).symm) hl'
      | false =>
        have hr := ih.readers t op _ hin hl
        have hsame : w s.sh = s.sh := hr.1 s.sh
        refine ⟨hf ▸ ih.answers, ?_, ?_, ?_, ?_⟩
        · simp only [hsame]; exact hf ▸ ih.free
        · intro u hu
          obtain ⟨op', b, h1, h2, h3⟩ := ih.held u hu
          have hne : u ≠ t := by
            rintro rfl
            rw [hin] at h1; injection h1 with h1; subst h1
            rw [hl] at h2; cases h2
          refine ⟨op', b, (put_other _ _ _ _ hne).trans h1, h2, ?_⟩
          simp only [hsame]; exact hf ▸ h3
        · intro u op' b hu hl'
          by_cases hne : u = t
          · subst hne
            simp only [put_same] at hu
            injection hu with h1 h2; subst h1
            rw [hl] at hl'; cases hl'
          · exact ih.holder u op' b (by rw [← hu]; exact (put_other _ _ _ _ hne).symm) hl'
        · intro u op' b hu hl'
          by_cases hne : u = t
          · subst hne
            simp only [put_same] at hu
            injection hu with h1 h2; subst h2
            exact hr.2 s.sh
          · exact ih.readers u op' b (by rw [← hu]; exact (put_other _ _ _ _ hne).symm) hl'
    | exit t op r hin =>
      cases hl : O.locks op with
      | true =>
        have hf : finished O (tr ++ [.exit t op r]) = finished O tr ++ [(op, r)] := by simp [finished, hl]
        have hown := ih.holder t op _ hin hl
        obtain ⟨op', b, h1, h2, h3⟩ := ih.held t hown
        rw [hin] at h1; injection h1 with h1 h1'; subst h1; subst h1'
        have h3 : (s.sh, r) = (O.body op).run (seq O s0 ((finished O tr).map (·.1))).1 := h3
        refine ⟨?_, fun _ => ?_, fun u hu => ?_, ?_, ?_⟩
        · rw [hf, List.map_append, List.map_append, List.map_singleton, List.map_singleton, seq_snoc, ih.answers, ← h3]
        · rw [hf, List.map_append, List.map_singleton, seq_snoc, ← h3]
        · simp at hu
        · intro u op' b hu hl'
          by_cases hne : u = t
          · subst hne; simp at hu
          · have := ih.holder u op' b (by rw [← hu]; exact (put_other _ _ _ _ hne).symm) hl'
            rw [hown] at this; injection this with this; exact absurd this.symm hne
        · intro u op' b hu hl'
          by_cases hne : u = t
          · subst hne; simp at hu
          · exact ih.readers u op' b (by rw [← hu]; exact (put_other _ _ _ _ hne).symm) hl'
      | false =>
        have hf : finished O (tr ++ [.exit t op r]) = finished O tr := by simp [finished, hl]
        refine ⟨hf ▸ ih.answers, ?_, ?_, ?_, ?_⟩
        · intro hfree; simp at hfree; rw [hf]; exact ih.free hfree
        · intro u hu
          have hu : s.lock = some u := by simpa using hu
          obtain ⟨op', b, h1, h2, h3⟩ := ih.held u hu
          have hne : u ≠ t := by
            rintro rfl
            rw [hin] at h1; injection h1 with h1; subst h1
            rw [hl] at h2; cases h2
          exact ⟨op', b, (put_other _ _ _ _ hne).trans h1, h2, hf ▸ h3⟩
        · intro u op' b hu hl'
          by_cases hne : u = t
          · subst hne; simp at hu
          · have := ih.holder u op' b (by rw [← hu]; exact (put_other _ _ _ _ hne).symm) hl'
            simpa using this
        · intro u op' b hu hl'
          by_cases hne : u = t
          · subst hne; simp at hu
          · exact ih.readers u op' b (by rw [← hu]; exact (put_other _ _ _ _ hne).symm) hl'

/-- However the goroutines are interleaved: what the calls returned, and what is in memory while nobody holds the mutex, is what comes of
the same calls made one after the other, in the order in which they released the mutex. -/
theorem one_by_one (O : Obj σ Op ρ) (hro : ∀ op, O.locks op = false → (O.body op).ReadOnly) (s0 : σ) (tr : List (Ev Op ρ)) (s : St σ Op ρ) (h : Exec O s0 tr s) :
    (seq O s0 ((finished O tr).map (·.1))).2 = (finished O tr).map (·.2) ∧ (s.lock = none → s.sh = (seq O s0 ((finished O tr).map (·.1))).1) :=
  ⟨(inv O hro s0 tr s h).answers, (inv O hro s0 tr s h).free⟩

/-- A goroutine that waits waits for one that can go on: never do all of them wait. -/
theorem goes_on (O : Obj σ Op ρ) (hro : ∀ op, O.locks op = false → (O.body op).ReadOnly) (s0 : σ) (tr : List (Ev Op ρ)) (s : St σ Op ρ) (h : Exec O s0 tr s)
    (t : Nat) (ht : s.th t ≠ .idle) : ∃ e s', Step O s e s' ∧ ∀ u op, e ≠ .call u op := by
  have hi := inv O hro s0 tr s h
  have inside : ∀ u op b, s.th u = .inside op b → ∃ e s', Step O s e s' ∧ ∀ u op, e ≠ .call u op := by
    intro u op b hb
    cases b with
    | ret r => exact ⟨_, _, .exit s u op r hb, by intros; simp⟩
    | step w k => exact ⟨_, _, .act s u op w k hb, by intros; simp⟩
  cases hth : s.th t with
  | idle => exact absurd hth ht
  | inside op b => exact inside t op b hth
  | called op =>
    cases hl : O.locks op with
    | false => exact ⟨_, _, .start s t op hth hl, by intros; simp⟩
    | true =>
      cases hk : s.lock with
      | none => exact ⟨_, _, .lock s t op hth hl hk, by intros; simp⟩
      | some u =>
        obtain ⟨op', b, h1, -, -⟩ := hi.held u hk
        exact inside u op' b h1

/-- The call a goroutine is in, by what has happened: the last one it made, unless it returned. -/
def pending (t : Nat) (tr : List (Ev Op ρ)) : Option Op :=
  tr.foldl (fun acc e => match e with
    | .call u op => if u = t then some op else acc
    | .exit u _ _ => if u = t then none else acc
    | _ => acc) none

/-- Calls return once, and what returns was called: at any time the call a goroutine is in is the last one it made, it makes no other
call before that returned, and what it returns from is that call. -/
theorem returns (O : Obj σ Op ρ) (s0 : σ) (tr : List (Ev Op ρ)) (s : St σ Op ρ) (h : Exec O s0 tr s) :
    (∀ a b t op r, tr = a ++ .exit t op r :: b → pending t a = some op) ∧ (∀ a b t op, tr = a ++ .call t op :: b → pending t a = none) := by
  have key : (∀ t, pending t tr = match s.th t with | .idle => none | .called op => some op | .inside op _ => some op) ∧
      (∀ a b t op r, tr = a ++ .exit t op r :: b → pending t a = some op) ∧ (∀ a b t op, tr = a ++ .call t op :: b → pending t a = none) := by
    induction h with
    | init => exact ⟨fun t => rfl, fun a b t op r h => by simp at h, fun a b t op h => by simp at h⟩
    | @snoc tr s s' e he hs ih =>
      obtain ⟨ih1, ih2, ih3⟩ := ih
      have last : ∀ (a b : List (Ev Op ρ)) (x : Ev Op ρ), tr ++ [e] = a ++ x :: b → (∃ b', tr = a ++ x :: b') ∨ (a = tr ∧ x = e) := by
        intro a b x hx
        rcases List.eq_nil_or_concat b with rfl | ⟨b', y, rfl⟩
        · have := List.append_inj' hx (by simp)
          exact .inr ⟨this.1.symm, by simpa using this.2.symm⟩
        · have : tr ++ [e] = (a ++ x :: b') ++ [y] := by simpa using hx
          exact .inl ⟨b', (List.append_inj' this (by simp)).1⟩
      have psnoc : ∀ t, pending t (tr ++ [e]) = match e with
          | .call u op => if u = t then some op else pending t tr
          | .exit u _ _ => if u = t then none else pending t tr
          | _ => pending t tr := by
        intro t; cases e <;> simp [pending, List.foldl_append]
      refine ⟨?_, ?_, ?_⟩
      · intro t
        rw [psnoc t]
        cases hs with
        | call u op hi =>
          by_cases hut : u = t
          · subst hut; simp
          · simp only [hut, if_false, put_other _ _ _ _ (Ne.symm hut)]; exact ih1 t
        | lock u op hc hl hk =>
          by_cases hut : u = t
          · subst hut; simp only [put_same]; rw [ih1, hc]
          · simp only [put_other _ _ _ _ (Ne.symm hut)]; exact ih1 t
        | start u op hc hl =>
          by_cases hut : u = t
          · subst hut; simp only [put_same]; rw [ih1, hc]
          · simp only [put_other _ _ _ _ (Ne.symm hut)]; exact ih1 t
        | act u op w k hin =>
          by_cases hut : u = t
          · subst hut; simp only [put_same]; rw [ih1, hin]
          · simp only [put_other _ _ _ _ (Ne.symm hut)]; exact ih1 t
        | exit u op r hin =>
          by_cases hut : u = t
          · subst hut; simp
          · simp only [hut, if_false, put_other _ _ _ _ (Ne.symm hut)]; exact ih1 t
      · intro a b t op r hx
        rcases last a b _ hx with ⟨b', hb⟩ | ⟨rfl, hy⟩
        · exact ih2 a b' t op r hb
        · subst hy
          cases hs with | exit _ _ _ hin => ?_
          rw [ih1]; simp [hin]
      · intro a b t op hx
        rcases last a b _ hx with ⟨b', hb⟩ | ⟨rfl, hy⟩
        · exact ih3 a b' t op hb
        · subst hy
          cases hs with | call _ _ hin => ?_
          rw [ih1]; simp [hin]
  exact key.2

/-! ### executions that can be computed -/

/-- What is to happen: a goroutine calls a method, or goes on with the one it is in. -/
inductive Sched (Op : Type) where
  | call (t : Nat) (op : Op)
  | go (t : Nat)

/-- It, if it can happen. -/
def next (O : Obj σ Op ρ) (s : St σ Op ρ) : Sched Op → Option (Ev Op ρ × St σ Op ρ)
  | .call t op => match s.th t with
    | .idle => some (.call t op, { s with th := put s.th t (.called op) })
    | _ => none
  | .go t => match s.th t with
    | .idle => none
    | .called op => match O.locks op, s.lock with
      | true, none => some (.enter t op, { s with lock := some t, th := put s.th t (.inside op (O.body op)) })
      | true, some _ => none
      | false, _ => some (.enter t op, { s with th := put s.th t (.inside op (O.body op)) })
    | .inside op (.step w k) => some (.act t, { s with sh := w s.sh, th := put s.th t (.inside op (k s.sh)) })
    | .inside op (.ret r) => some (.exit t op r, { s with lock := if O.locks op then none else s.lock, th := put s.th t .idle })

/-- All of it, leaving out what cannot happen. -/
def play (O : Obj σ Op ρ) (s : St σ Op ρ) : List (Sched Op) → List (Ev Op ρ) × St σ Op ρ
  | [] => ([], s)
  | x :: l => match next O s x with
    | some (e, s') => (e :: (play O s' l).1, (play O s' l).2)
    | none => play O s l

theorem next_step (O : Obj σ Op ρ) (s s' : St σ Op ρ) (x : Sched Op) (e : Ev Op ρ) (h : next O s x = some (e, s')) : Step O s e s' := by
  cases x with
  | call t op =>
    simp only [next] at h
    split at h
    · rename_i hi; injection h with h; injection h with h1 h2; subst h1; subst h2; exact .call s t op hi
    · cases h
  | go t =>
    simp only [next] at h
    split at h
    · cases h
    · rename_i op hc
      split at h
      · rename_i hl hf; injection h with h; injection h with h1 h2; subst h1; subst h2; exact .lock s t op hc hl hf
      · cases h
      · rename_i hl; injection h with h; injection h with h1 h2; subst h1; subst h2; exact .start s t op hc hl
    · rename_i op w k hc
      injection h with h; injection h with h1 h2; subst h1; subst h2; exact .act s t op w k hc
    · rename_i op r hc
      injection h with h; injection h with h1 h2; subst h1; subst h2; exact .exit s t op r hc

theorem play_exec (O : Obj σ Op ρ) (s0 : σ) (l : List (Sched Op)) :
    Exec O s0 (play O ⟨s0, none, fun _ => .idle⟩ l).1 (play O ⟨s0, none, fun _ => .idle⟩ l).2 := by
  have gen : ∀ (l : List (Sched Op)) (tr : List (Ev Op ρ)) (s : St σ Op ρ), Exec O s0 tr s → Exec O s0 (tr ++ (play O s l).1) (play O s l).2 := by
    intro l
    induction l with
    | nil => intro tr s h; simpa [play] using h
    | cons x l ih =>
      intro tr s h
      simp only [play]
      split
      · rename_i e s' hn
        have := ih _ _ (.snoc h (next_step O s s' x e hn))
        simpa using this
      · exact ih tr s h
  simpa using gen l [] _ .init

/-- The calls that happen are among those that were to happen. -/
theorem play_calls (O : Obj σ Op ρ) (l : List (Sched Op)) (s : St σ Op ρ) (t : Nat) (op : Op) (h : .call t op ∈ (play O s l).1) : .call t op ∈ l := by
  induction l generalizing s with
  | nil => cases h
  | cons x l ih =>
    simp only [play] at h
    split at h
    · rename_i e s' hn
      rcases List.mem_cons.1 h with h | h
      · subst h
        cases x with
        | call u o =>
          simp only [next] at hn
          split at hn
          · injection hn with hn; injection hn with h1 h2; injection h1 with h3 h4; subst h3; subst h4; exact List.mem_cons_self
          · cases hn
        | go u =>
          exfalso
          simp only [next] at hn
          split at hn
          · cases hn
          · split at hn <;> simp at hn
          · simp at hn
          · simp at hn
      · exact List.mem_cons_of_mem _ (ih s' h)
    · exact List.mem_cons_of_mem _ (ih s h)

end Verif.Sync.Locked

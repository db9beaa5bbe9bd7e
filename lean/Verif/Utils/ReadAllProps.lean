import Verif.Utils.ReadAll
/-!
# Properties of `ReadAll` (C17)
-/
set_option autoImplicit false
namespace Verif.Utils

/-- What a returned value must be: the bytes of `n` error-free calls, and the reason for stopping there. -/
def Sound (r : Reader) (cancelled : Bool) (res : List UInt8 × RResult) : Prop :=
  ∃ n, clean r n ∧ res.1 = delivered r n ∧
    ((res.2 = .timeout ∧ cancelled = true) ∨ (res.2 = .ok ∧ (r n).2 = some .eof) ∨ (∃ id, res.2 = .failed id ∧ (r n).2 = some (.other id)))

/-- The result an error of the reader stands for. -/
def verdict : RErr → RResult
  | .eof => .ok
  | .other id => .failed id

/-- The invariant of all interleavings. -/
structure RInv (r : Reader) (s : RS) : Prop where
  run : s.pc ≠ .exited → clean r s.i ∧ s.out = delivered r s.i
  out : ∃ n, n ≤ s.i ∧ s.i ≤ n + 1 ∧ clean r n ∧ s.out = delivered r n ∧ ∀ e, s.ch = some e → (r n).2 = some e
  ch : s.ch ≠ none → s.pc = .exited
  closes : s.closes = if s.ret = none then 0 else 1
  ret : ∀ res, s.ret = some res → Sound r s.cancelled res

theorem rinv_init (r : Reader) : RInv r RS.init where
  run := fun _ => ⟨fun k hk => absurd hk (by simp [RS.init]), rfl⟩
  out := ⟨0, Nat.le_refl _, Nat.zero_le _, fun k hk => absurd hk (by omega), rfl, by simp [RS.init]⟩
  ch := by simp [RS.init]
  closes := rfl
  ret := by simp [RS.init]

theorem rinv_step {r : Reader} {s s' : RS} (a : RAct) (h : RInv r s) (hs : s.step r a = some s') : RInv r s' := by
  obtain ⟨h1, h2, h3, h4, h5⟩ := h
  cases a with
  | cancel =>
    simp only [RS.step, Option.some.injEq] at hs; subst hs
    refine ⟨h1, h2, h3, h4, ?_⟩
    intro res hres
    obtain ⟨n, hn, ho, hr⟩ := h5 res hres
    exact ⟨n, hn, ho, by rcases hr with ⟨a, b⟩ | hr | hr <;> simp_all⟩
  | check =>
    simp only [RS.step] at hs
    split at hs
    · rename_i hpc
      simp only [Option.some.injEq] at hs; subst hs
      refine ⟨fun _ => h1 (by rw [hpc]; simp), h2, ?_, h4, h5⟩
      intro hc; exact absurd (h3 hc) (by rw [hpc]; simp)
    · cases hs
  | read =>
    simp only [RS.step] at hs
    split at hs
    · rename_i hpc
      obtain ⟨hc, ho⟩ := h1 (by rw [hpc]; simp)
      split at hs
      · rename_i bs e hr
        simp only [Option.some.injEq] at hs; subst hs
        refine ⟨by simp, ⟨s.i, by simp, by simp, hc, ho, ?_⟩, by simp, h4, h5⟩
        intro e' he'; simp only [Option.some.injEq] at he'; subst he'; rw [hr]
      · rename_i bs hr
        simp only [Option.some.injEq] at hs; subst hs
        have hcl : clean r (s.i + 1) := by
          intro k hk
          rcases Nat.lt_succ_iff_lt_or_eq.1 hk with hk | rfl
          · exact hc k hk
          · rw [hr]
        have ho' : s.out ++ bs = delivered r (s.i + 1) := by simp [delivered, ho, hr]
        have hch : s.ch = none := by
          cases hx : s.ch with
          | none => rfl
          | some e => exact absurd (h3 (by rw [hx]; simp)) (by rw [hpc]; simp)
        exact ⟨fun _ => ⟨hcl, ho'⟩, ⟨s.i + 1, by simp, by simp, hcl, ho', by simp [hch]⟩, by simp [hch], h4, h5⟩
    · cases hs
  | done =>
    simp only [RS.step] at hs
    split at hs
    · rename_i hret
      split at hs
      · rename_i hcan
        simp only [Option.some.injEq] at hs; subst hs
        refine ⟨h1, h2, h3, by simp [h4, hret], ?_⟩
        intro res hres; simp only [Option.some.injEq] at hres; subst hres
        obtain ⟨n, _, _, hc, ho, _⟩ := h2
        exact ⟨n, hc, ho, .inl ⟨rfl, hcan⟩⟩
      · cases hs
    · cases hs
  | recv =>
    obtain ⟨n, hn1, hn2, hc, ho, he⟩ := h2
    simp only [RS.step] at hs
    split at hs
    · rename_i hret hch
      simp only [Option.some.injEq] at hs; subst hs
      have hex := h3 (by rw [hch]; simp)
      refine ⟨fun h => absurd hex h, ⟨n, hn1, hn2, hc, ho, by simp⟩, by simp, by simp [h4, hret], ?_⟩
      intro res hres; simp only [Option.some.injEq] at hres; subst hres
      exact ⟨n, hc, ho, .inr (.inl ⟨rfl, he _ hch⟩)⟩
    · rename_i id hret hch
      simp only [Option.some.injEq] at hs; subst hs
      have hex := h3 (by rw [hch]; simp)
      refine ⟨fun h => absurd hex h, ⟨n, hn1, hn2, hc, ho, by simp⟩, by simp, by simp [h4, hret], ?_⟩
      intro res hres; simp only [Option.some.injEq] at hres; subst hres
      exact ⟨n, hc, ho, .inr (.inr ⟨id, rfl, he _ hch⟩)⟩
    · cases hs

theorem rinv {r : Reader} {s : RS} (h : RS.Reach r s) : RInv r s := by
  induction h with
  | init => exact rinv_init r
  | step a _ hs ih => exact rinv_step a ih hs

/-- C17: whatever the interleaving, `ReadAll` returns exactly the bytes of the calls before the one it stopped at; the error is nil
iff that call reported `io.EOF`, and "timeout" only if the context was cancelled. -/
theorem C17_result {r : Reader} {s : RS} (h : RS.Reach r s) {bs : List UInt8} {res : RResult} (hr : s.ret = some (bs, res)) :
    ∃ n, (∀ k, k < n → (r k).2 = none) ∧ bs = delivered r n ∧
      ((res = .timeout ∧ s.cancelled = true) ∨ (res = .ok ∧ (r n).2 = some .eof) ∨ (∃ id, res = .failed id ∧ (r n).2 = some (.other id))) :=
  (rinv h).ret _ hr

theorem delivered_congr {r r' : Reader} : ∀ n, (∀ k, k < n → (r k).1 = (r' k).1) → delivered r n = delivered r' n
  | 0, _ => rfl
  | n + 1, h => by rw [delivered, delivered, delivered_congr n (fun k hk => h k (by omega)), h n (by omega)]

/-- C17: without cancellation the result is a function of the reader alone: with the first error at call `n`, it is the bytes of the
calls before `n`, whatever bytes call `n` delivered (those are dropped), and nil exactly for `io.EOF`. -/
theorem C17_uncancelled {r : Reader} {s : RS} (h : RS.Reach r s) (hc : s.cancelled = false) {bs : List UInt8} {res : RResult}
    (hr : s.ret = some (bs, res)) {n : Nat} {e : RErr} (hclean : ∀ k, k < n → (r k).2 = none) (he : (r n).2 = some e) :
    bs = delivered r n ∧ res = verdict e := by
  obtain ⟨m, hm, hb, hres⟩ := C17_result h hr
  have hmn : m = n := by
    have hme : (r m).2 ≠ none := by rcases hres with ⟨_, h⟩ | ⟨_, h⟩ | ⟨_, _, h⟩ <;> simp_all
    rcases Nat.lt_trichotomy m n with hlt | heq | hlt
    · exact absurd (hclean m hlt) hme
    · exact heq
    · exact absurd (hm n hlt) (by rw [he]; simp)
  subst hmn
  refine ⟨hb, ?_⟩
  rcases hres with ⟨_, h⟩ | ⟨rfl, h⟩ | ⟨id, rfl, h⟩
  · simp_all
  · rw [he] at h; simp at h; subst h; rfl
  · rw [he] at h; simp at h; subst h; rfl

/-- C17: the loss itself: two readers that agree except in the bytes delivered together with the final error give the same result. -/
theorem C17_bytes_with_error_dropped {r r' : Reader} {s s' : RS} (h : RS.Reach r s) (h' : RS.Reach r' s') (hc : s.cancelled = false)
    (hc' : s'.cancelled = false) {x x' : List UInt8 × RResult} (hr : s.ret = some x) (hr' : s'.ret = some x') {n : Nat} {e : RErr}
    (hclean : ∀ k, k < n → (r k).2 = none) (he : (r n).2 = some e) (he' : (r' n).2 = some e) (hsame : ∀ k, k < n → r k = r' k) :
    x = x' := by
  obtain ⟨a1, a2⟩ := C17_uncancelled h hc hr hclean he
  obtain ⟨b1, b2⟩ := C17_uncancelled h' hc' hr' (fun k hk => by rw [← hsame k hk]; exact hclean k hk) he'
  have := delivered_congr (r := r) (r' := r') n (fun k hk => by rw [hsame k hk])
  ext1
  · rw [a1, b1, this]
  · rw [a2, b2]

/-- C17: the close callback runs exactly once, when and only when the call returns. -/
theorem C17_close_once {r : Reader} {s : RS} (h : RS.Reach r s) : s.closes = if s.ret = none then 0 else 1 := (rinv h).closes

/-- Any number of further steps. -/
inductive RS.Later (r : Reader) (s : RS) : RS → Prop where
  | refl : RS.Later r s s
  | step {s' s'' : RS} (a : RAct) : RS.Later r s s' → s'.step r a = some s'' → RS.Later r s s''

/-- C17 (cancellation): once the context is cancelled, the goroutine completes at most the `Read` call it is in and starts no other one,
whatever the interleaving; at the loop test it starts none at all. -/
theorem C17_cancel_stops {r : Reader} {s s' : RS} (hc : s.cancelled = true) (h : RS.Later r s s') :
    s'.i ≤ s.i + (if s.pc = .reading then 1 else 0) := by
  have inv : s'.cancelled = true ∧ ((s'.pc = .reading → s.pc = .reading ∧ s'.i = s.i) ∧ s'.i ≤ s.i + (if s.pc = .reading then 1 else 0)) := by
    induction h with
    | refl => exact ⟨hc, fun h => ⟨h, rfl⟩, by omega⟩
    | step a _ hs ih =>
      obtain ⟨i1, i2, i3⟩ := ih
      cases a <;> simp only [RS.step] at hs <;> repeat' split at hs
      all_goals first
        | cases hs; done
        | (injection hs with hs; subst hs; simp_all; try omega)
  exact inv.2.2

/-- C17 (cancellation): the goroutine is never stuck: until it has exited, one of its own steps is possible; and at the loop test of a
cancelled call that step is the exit. -/
theorem C17_goroutine_progress (r : Reader) (s : RS) (h : s.pc ≠ .exited) :
    ∃ a s', (a = .check ∨ a = .read) ∧ s.step r a = some s' ∧ (s.cancelled = true → s.pc = .check → s'.pc = .exited) := by
  cases hp : s.pc with
  | exited => exact absurd hp h
  | check => exact ⟨.check, _, .inl rfl, by simp only [RS.step, hp]; rfl, fun hc _ => by simp [hc]⟩
  | reading =>
    rcases hr : r s.i with ⟨bs, _ | e⟩
    · exact ⟨.read, _, .inr rfl, by simp only [RS.step, hp, hr]; rfl, by simp⟩
    · exact ⟨.read, _, .inr rfl, by simp only [RS.step, hp, hr]; rfl, by simp⟩

/-- Steps of one uncancelled iteration. -/
theorem reach_after {r : Reader} : ∀ n, clean r n →
    RS.Reach r { i := n, out := delivered r n, cancelled := false, pc := .check, ch := none, ret := none, closes := 0 }
  | 0, _ => .init
  | n + 1, h => by
    have h0 := reach_after n (fun k hk => h k (by omega))
    have h1 := RS.Reach.step .check h0 (s' := _) (by simp only [RS.step]; rfl)
    refine RS.Reach.step .read h1 ?_
    have hn : (r n).2 = none := h n (by omega)
    simp only [RS.step]
    rcases hrn : r n with ⟨bs, e⟩
    rw [hrn] at hn; simp only at hn; subst hn
    simp [delivered, hrn]

/-- C17: a reader that fails at some call makes `ReadAll` return (there is an execution, and by the previous theorems all its results
agree). -/
theorem C17_returns {r : Reader} {n : Nat} {e : RErr} (hclean : ∀ k, k < n → (r k).2 = none) (he : (r n).2 = some e) :
    ∃ s, RS.Reach r s ∧ s.cancelled = false ∧ s.ret = some (delivered r n, verdict e) := by
  have h0 := reach_after n hclean
  have h1 := RS.Reach.step .check h0 (s' := _) (by simp only [RS.step]; rfl)
  rcases hrn : r n with ⟨bs, e'⟩
  have he'' : e' = some e := by rw [hrn] at he; exact he
  subst he''
  have h2 := RS.Reach.step .read h1 (s' := _) (by simp only [RS.step, hrn]; rfl)
  cases e with
  | eof => exact ⟨_, RS.Reach.step .recv h2 (s' := _) (by simp only [RS.step]; rfl), rfl, rfl⟩
  | other id => exact ⟨_, RS.Reach.step .recv h2 (s' := _) (by simp only [RS.step]; rfl), rfl, rfl⟩

/-- A reader delivering two chunks and then its last bytes together with EOF. -/
def sampleReader : Reader
  | 0 => ([1, 2], none)
  | 1 => ([3], none)
  | _ => ([4, 5], some .eof)

example : ∃ s, RS.Reach sampleReader s ∧ s.cancelled = false ∧ s.ret = some ([1, 2, 3], .ok) :=
  C17_returns (r := sampleReader) (n := 2) (e := .eof) (by intro k hk; match k, hk with | 0, _ => rfl | 1, _ => rfl) rfl

/-- Cancelled after one chunk: a prefix and a timeout. -/
example : (do
    let s ← RS.init.step sampleReader .check
    let s ← s.step sampleReader .read
    let s ← s.step sampleReader .cancel
    let s ← s.step sampleReader .done
    s.ret) = some ([1, 2], .timeout) := by decide

end Verif.Utils

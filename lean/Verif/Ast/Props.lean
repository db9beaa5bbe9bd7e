import Verif.Ast.Lemmas
/-!
# Properties of the argument finder (C96, C97, C98)
-/
set_option autoImplicit false
namespace Verif.Ast
open Verif.Strconv Verif.Enc

/-! ### C96 -/

theorem visitCall_none {fname : Str} {target : Nat} {s : Option Scope} {line : Nat} {fn : Fn} {args : List ArgInfo}
    (h : visitCall fname target s line fn args = .ok none) : ¬ Matches fname target (.call line fn args) := by
  rintro ⟨rfl, name, hn⟩
  rw [← matchFn_iff] at hn
  simp only [visitCall, if_true, hn] at h
  cases hr : readArgs s args <;> rw [hr] at h <;> simp [Except.map] at h

theorem visitCall_some {fname : Str} {target : Nat} {s : Option Scope} {line : Nat} {fn : Fn} {args : List ArgInfo} {c : Call}
    (h : visitCall fname target s line fn args = .ok (some c)) :
    line = target ∧ Names fname fn c.name ∧ c.args = args.map (fun a => ⟨shown a, readScope s (shown a)⟩) := by
  simp only [visitCall] at h
  split at h
  · rename_i hl
    cases hm : matchFn fname fn with
    | none => rw [hm] at h; cases h
    | some name =>
      rw [hm] at h
      cases hr : readArgs s args with
      | error p => rw [hr] at h; cases h
      | ok as =>
        rw [hr] at h
        simp only [Except.map, Except.ok.injEq, Option.some.injEq] at h
        subst h
        exact ⟨hl, (matchFn_iff _ _ _).1 hm, ((readArgs_ok _ _ _).1 hr).2⟩
  · cases h

/-- What the run has found so far is what should be reported for the events passed so far. -/
def FoundOK (fname : Str) (line : Nat) (pre : List Tok) : Option Call → Prop
  | none => ∀ t ∈ pre, ¬ Matches fname line t
  | some c => Reported fname line pre c

theorem found_snoc {fname : Str} {line : Nat} {pre : List Tok} {f : Option Call} {t : Tok} (h : FoundOK fname line pre f)
    (hn : ¬ Matches fname line t) : FoundOK fname line (pre ++ [t]) f := by
  cases f with
  | none =>
    intro x hx
    rcases List.mem_append.1 hx with hx | hx
    · exact h x hx
    · rw [List.mem_singleton.1 hx]; exact hn
  | some c =>
    obtain ⟨p, q, fn, args, rfl, hnm, hq, ha⟩ := h
    refine ⟨p, q ++ [t], fn, args, by simp, hnm, ?_, ha⟩
    intro x hx
    rcases List.mem_append.1 hx with hx | hx
    · exact hq x hx
    · rw [List.mem_singleton.1 hx]; exact hn

theorem run_found {fname : Str} {line : Nat} : ∀ (ts pre : List Tok) (st st' : RState), Agrees pre st → FoundOK fname line pre st.found →
    Closable ts st.stack.length → run fname line ts st = .ok st' → FoundOK fname line (pre ++ ts) st'.found
  | [], pre, st, st', _, hf, _, h => by simp only [run, Except.ok.injEq] at h; subst h; simpa using hf
  | t :: ts, pre, st, st', ha, hf, hc, h => by
    simp only [run] at h
    cases hs : stepTok fname line st t with
    | error p => rw [hs] at h; cases h
    | ok s1 =>
      rw [hs] at h
      have hne : t = .cls → st.stack ≠ [] := by
        rintro rfl he
        rw [he] at hc; exact absurd hc.1 (by simp)
      have ha1 := agrees_step ha hne hs
      have key : FoundOK fname line (pre ++ [t]) s1.found ∧ Closable ts s1.stack.length := by
        cases t with
        | opn =>
          simp only [stepTok, Except.ok.injEq] at hs; subst hs
          exact ⟨found_snoc hf (fun h => h), hc⟩
        | cls =>
          simp only [stepTok] at hs
          split at hs
          · rename_i he; exact absurd he (hne rfl)
          · rename_i s rest he
            simp only [Except.ok.injEq] at hs; subst hs
            refine ⟨found_snoc hf (fun h => h), ?_⟩
            have := hc.2; rw [he] at this; simpa using this
        | asg lhs src =>
          simp only [stepTok] at hs
          split at hs
          · simp only [Except.ok.injEq] at hs; subst hs; exact ⟨found_snoc hf (fun h => h), hc⟩
          · cases hs
        | call l fn args =>
          simp only [stepTok] at hs
          split at hs
          · rename_i c hv
            simp only [Except.ok.injEq] at hs; subst hs
            obtain ⟨rfl, h2, h3⟩ := visitCall_some hv
            refine ⟨⟨pre, [], fn, args, rfl, h2, by simp, ?_⟩, hc⟩
            rw [h3]
            apply List.map_congr_left
            intro a _
            rw [ha.cur]
          · rename_i hv
            simp only [Except.ok.injEq] at hs; subst hs
            exact ⟨found_snoc hf (visitCall_none hv), hc⟩
          · cases hs
      have := run_found ts (pre ++ [t]) s1 st' ha1 key.1 key.2 h
      simpa using this

theorem agrees_init : Agrees [] ⟨none, [], none⟩ := ⟨fun k => rfl, fun j s h => by simp at h⟩

/-- C96: whenever `Caller` does not panic, it reports exactly the last call of that name on that line with every argument's text and
last assignment, and an error exactly when there is no such call. -/
theorem C96_caller (file : List Node) (fname : Str) (line : Nat) (r : Option Call) (h : caller (some file) fname line = .ok r) :
    (∀ c, r = some c → Reported fname line (toksAll file) c) ∧ (r = none ↔ ∀ t ∈ toksAll file, ¬ Matches fname line t) := by
  simp only [caller] at h
  have hrun := run_walkAll fname line file none [] none
  cases hw : walkAll fname line file (none, none) with
  | error p => rw [hw] at h; cases h
  | ok st =>
    obtain ⟨s, f⟩ := st
    rw [hw] at h hrun
    simp only [Except.ok.injEq] at h; subst h
    have hcl : Closable (toksAll file) 0 := by simpa using closable_toksAll file [] 0 trivial
    have hf := run_found (fname := fname) (line := line) (toksAll file) [] ⟨none, [], none⟩ ⟨s, [], f⟩ agrees_init (by intro t ht; cases ht) hcl hrun
    simp only [List.nil_append] at hf
    cases f with
    | none => exact ⟨(fun c hc => by cases hc), (fun _ => hf), (fun _ => rfl)⟩
    | some c =>
      refine ⟨(fun c' hc => by cases hc; exact hf), (fun hc => by cases hc), ?_⟩
      intro hall
      obtain ⟨p, q, fn, args, he, hn, _⟩ := hf
      exact absurd ⟨rfl, c.name, hn⟩ (hall (.call line fn args) (by rw [he]; simp))

/-- C96: the report determines the call: two reports of the same file agree. -/
theorem C96_unique (fname : Str) (line : Nat) (ts : List Tok) (c c' : Call) (h : Reported fname line ts c) (h' : Reported fname line ts c') :
    c = c' := by
  obtain ⟨p, q, fn, args, he, hn, hq, ha⟩ := h
  obtain ⟨p', q', fn', args', he', hn', hq', ha'⟩ := h'
  have hm : Matches fname line (.call line fn args) := ⟨rfl, _, hn⟩
  have hm' : Matches fname line (.call line fn' args') := ⟨rfl, _, hn'⟩
  rw [he] at he'
  have key : p = p' ∧ Tok.call line fn args = .call line fn' args' ∧ q = q' := by
    rcases List.append_eq_append_iff.1 he' with ⟨m, h1, h2⟩ | ⟨m, h1, h2⟩
    · cases m with
      | nil => simp at h1 h2; exact ⟨h1.symm, by simp [h2], h2.2⟩
      | cons x m =>
        simp only [List.cons_append, List.cons.injEq] at h2
        exact absurd hm' (hq _ (by rw [h2.2]; simp))
    · cases m with
      | nil => simp at h1 h2; exact ⟨h1, by simp [h2], h2.2.symm⟩
      | cons x m =>
        simp only [List.cons_append, List.cons.injEq] at h2
        exact absurd hm (hq' _ (by rw [h2.2]; simp))
  obtain ⟨rfl, h2, rfl⟩ := key
  simp only [Tok.call.injEq, true_and] at h2
  obtain ⟨rfl, rfl⟩ := h2
  have hname : c.name = c'.name := by
    have := (matchFn_iff _ _ _).2 hn
    have h2 := (matchFn_iff _ _ _).2 hn'
    rw [this] at h2; exact Option.some.inj h2
  cases c; cases c'; simp_all

/-! ### C97 -/

mutual
theorem skip_toks (k : Str) : ∀ (n : Node) (ts : List Tok) (d : Nat), lastAssigned k ((toks n).reverse ++ ts) (d + 1) = lastAssigned k ts (d + 1)
  | .block kids, ts, d => by
    simp only [toks, List.reverse_cons, List.reverse_append, List.reverse_nil, List.nil_append, List.append_assoc, List.cons_append, lastAssigned]
    rw [skip_toksAll k kids _ (d + 1)]
    simp [lastAssigned]
  | .assign lhs src kids, ts, d => by
    simp only [toks, List.reverse_cons, List.append_assoc]
    rw [skip_toksAll k kids _ d]; simp [lastAssigned]
  | .call line fn args kids, ts, d => by
    simp only [toks, List.reverse_cons, List.append_assoc]
    rw [skip_toksAll k kids _ d]; simp [lastAssigned]
  | .other kids, ts, d => by simp only [toks]; exact skip_toksAll k kids ts d

theorem skip_toksAll (k : Str) : ∀ (ns : List Node) (ts : List Tok) (d : Nat),
    lastAssigned k ((toksAll ns).reverse ++ ts) (d + 1) = lastAssigned k ts (d + 1)
  | [], ts, d => rfl
  | n :: ns, ts, d => by
    simp only [toksAll, List.reverse_append, List.append_assoc]
    rw [skip_toksAll k ns _ d, skip_toks k n ts d]
end

/-- C97 (partial): what is assigned inside a block that ended before the call is never reported, whatever the block contains. -/
theorem C97_closed_block_partial (k : Str) (kids : List Node) (pre : List Tok) :
    lastAssigned k (pre ++ toks (.block kids)).reverse 0 = lastAssigned k pre.reverse 0 := by
  simp only [toks, List.reverse_append, List.reverse_cons, List.reverse_nil, List.nil_append, List.append_assoc, List.cons_append, lastAssigned]
  rw [skip_toksAll k kids _ 0]
  simp [lastAssigned]

/-- C97 (partial): the last plain assignment of the block before the call is the one reported. -/
theorem C97_last_partial (k : Str) (lhs : List (Option Str)) (src : Str) (pre : List Tok) (between : List Tok) (hk : some k ∈ lhs)
    (hb : ∀ t ∈ between, ∃ l f a, t = .call l f a) :
    lastAssigned k (pre ++ .asg lhs src :: between).reverse 0 = some src := by
  have skip : ∀ (between ts : List Tok), (∀ t ∈ between, ∃ l f a, t = Tok.call l f a) → lastAssigned k (between ++ ts) 0 = lastAssigned k ts 0 := by
    intro between
    induction between with
    | nil => intro ts _; rfl
    | cons t between ih =>
      intro ts h
      obtain ⟨l, f, a, rfl⟩ := h t (by simp)
      simp only [List.cons_append, lastAssigned]
      exact ih ts (fun t ht => h t (by simp [ht]))
  simp only [List.reverse_append, List.reverse_cons, List.append_assoc]
  rw [skip between.reverse _ (fun t ht => hb t (by simpa using ht))]
  simp [lastAssigned, hk]

/-- C97 (violated): an argument that is reassigned from the call itself, as in `x = f(x)`, is reported as assigned by that very call, not
by the assignment `before` that gave it the value passed. -/
theorem C97_own_assignment_violated (f x before own : Str) (line : Nat) :
    caller (some [.block [.assign [some x] before [], .assign [some x] own [.call line (.ident f) [⟨x, none⟩] []]]]) f line =
      .ok (some ⟨f, [⟨x, own⟩]⟩) := by
  simp [caller, walkAll, walk, setScope, visitCall, matchFn, readArgs, readScope, Except.map]

/-- C97 (violated): the variable of an `if x := …; … { }` is reported for a call after the `if`, where another `x` is meant. -/
theorem C97_leak_violated (f x before inner : Str) (line : Nat) :
    caller (some [.block [.assign [some x] before [], .other [.assign [some x] inner [], .block []], .call line (.ident f) [⟨x, none⟩] []]]) f line =
      .ok (some ⟨f, [⟨x, inner⟩]⟩) := by
  simp [caller, walkAll, walk, setScope, visitCall, matchFn, readArgs, readScope, Except.map]

/-! ### C98 -/

/-- C98 (violated): an empty function literal among the arguments of the call makes the finder panic, so the assertion under test
crashes instead of reporting. -/
theorem C98_empty_literal_violated (f : Str) (line : Nat) (args : List ArgInfo) (a : ArgInfo) (ha : a ∈ args) (hl : a.lit = some none) :
    ∀ fl arg, assignment (some [.block [.call line (.ident f) args []]]) f line fl arg = .error .index := by
  have hargs : ∀ s, readArgs s args = .error .index := by
    intro s
    induction args with
    | nil => cases ha
    | cons b args ih =>
      rcases List.mem_cons.1 ha with rfl | h
      · simp [readArgs, hl]
      · have := ih h
        rcases hb : b.lit with _ | _ | x <;> simp [readArgs, hb, this, Except.map]
  intro fl arg
  simp [assignment, caller, walkAll, walk, visitCall, matchFn, hargs, Except.map]

/-- C98 (violated): where the source file cannot be read, `Nil`, `NotNil`, `Empty` and `NotEmpty` crash with a nil dereference instead of
reporting. -/
theorem C98_no_source_violated (fname : Str) (line arg : Nat) (msg : Str) : argument none fname line arg msg = .error .nilDeref := rfl

/-- C98 (violated): so they do for any file in which no such call starts on the line, for instance a call of an instantiated generic
function `f[int](…)`. -/
theorem C98_not_found_violated (file : List Node) (fname : Str) (line arg : Nat) (msg : Str) (h : caller (some file) fname line = .ok none) :
    argument (some file) fname line arg msg = .error .nilDeref := by
  simp [argument, h]

theorem run_safe {fname : Str} {line : Nat} : ∀ (ts : List Tok) (st : RState),
    (∀ l fn args, Tok.call l fn args ∈ ts → Matches fname line (.call l fn args) → ∀ a ∈ args, a.lit ≠ some none) →
    Closable ts st.stack.length → inBlocks ts st.stack.length → (0 < st.stack.length → st.cur ≠ none) →
    (∀ (j : Nat), j + 1 < st.stack.length → st.stack[j]? ≠ some none) → ∃ st', run fname line ts st = .ok st'
  | [], st, _, _, _, _, _ => ⟨st, rfl⟩
  | t :: ts, st, hl, hc, hb, hcur, hstk => by
    simp only [run]
    have hl' : ∀ l fn args, Tok.call l fn args ∈ ts → Matches fname line (.call l fn args) → ∀ a ∈ args, a.lit ≠ some none :=
      fun l fn args h => hl l fn args (List.mem_cons_of_mem _ h)
    cases t with
    | opn =>
      simp only [stepTok]
      refine run_safe ts _ hl' hc hb (by simp) ?_
      intro j hj
      cases j with
      | zero =>
        simp only [List.length_cons] at hj
        simpa using hcur (by omega)
      | succ j =>
        simp only [List.length_cons] at hj
        simpa using hstk j (by omega)
    | cls =>
      simp only [stepTok]
      have hpos := hc.1
      split
      · rename_i s' he
        split at he
        · rename_i hn; rw [hn] at hpos; simp at hpos
        · rename_i s rest hn
          simp only [Except.ok.injEq] at he; subst he
          have h2 := hc.2; have h3 : inBlocks ts (st.stack.length - 1) := hb
          rw [hn] at h2 h3
          refine run_safe ts _ hl' (by simpa using h2) (by simpa using h3) ?_ ?_
          · intro hp hs
            simp only at hp hs
            exact hstk 0 (by rw [hn]; simp; omega) (by rw [hn, hs]; rfl)
          · intro j hj
            have := hstk (j + 1) (by rw [hn]; simp; omega)
            rw [hn] at this; simpa using this
      · rename_i he
        split at he <;> cases he
    | asg lhs src =>
      simp only [stepTok]
      have hpos : 0 < st.stack.length := hb.1
      cases hs : st.cur with
      | none => exact absurd hs (hcur hpos)
      | some sc =>
        obtain ⟨sc', hsc⟩ := setScope_some sc lhs src
        simp only [hsc]
        exact run_safe ts _ hl' hc hb.2 (by simp) hstk
    | call l fn args =>
      simp only [stepTok]
      have hok : ∃ o, visitCall fname line st.cur l fn args = .ok o := by
        simp only [visitCall]
        split
        · rename_i hle
          cases hm : matchFn fname fn with
          | none => exact ⟨none, rfl⟩
          | some name =>
            have := (readArgs_ok st.cur args _).2 ⟨hl l fn args (by simp) ⟨hle, name, (matchFn_iff _ _ _).1 hm⟩, rfl⟩
            exact ⟨_, by simp only [this, Except.map]; rfl⟩
        · exact ⟨none, rfl⟩
      obtain ⟨o, ho⟩ := hok
      cases o <;> simp only [ho] <;> exact run_safe ts _ hl' hc hb hcur hstk

/-- C98 (partial): in a file whose assignments are inside blocks (every Go file) and where no matching call has an empty function literal
as argument, the finder never panics. -/
theorem C98_partial (file : List Node) (fname : Str) (line : Nat) (hb : inBlocks (toksAll file) 0)
    (hl : ∀ l fn args, Tok.call l fn args ∈ toksAll file → Matches fname line (.call l fn args) → ∀ a ∈ args, a.lit ≠ some none) :
    ∃ r, caller (some file) fname line = .ok r := by
  have hcl : Closable (toksAll file) 0 := by simpa using closable_toksAll file [] 0 trivial
  obtain ⟨st', hs⟩ := run_safe (fname := fname) (line := line) (toksAll file) ⟨none, [], none⟩ hl hcl hb (by simp) (by simp)
  rw [run_walkAll] at hs
  simp only [caller]
  cases hw : walkAll fname line file (none, none) with
  | ok st => exact ⟨_, rfl⟩
  | error p => rw [hw] at hs; cases hs

/-! ### concrete cases -/

/-- ```
func T() {
	x := a
	{ x := b }
	f(t, x, func() { g() })
}
``` -/
def sample : List Node :=
  [.other [.block [.assign [some (lit "x")] (lit "a") [], .block [.assign [some (lit "x")] (lit "b") []],
    .call 4 (.sel (some (lit "test")) (lit "f")) [⟨lit "t", none⟩, ⟨lit "x", none⟩, ⟨lit "func() { g() }", some (some (lit "g()"))⟩]
      [.other [.block [.call 4 (.ident (lit "g")) [] []]]]]]]

example : caller (some sample) (lit "f") 4 = .ok (some ⟨lit "test.f", [⟨lit "t", []⟩, ⟨lit "x", lit "a"⟩, ⟨lit "g()", []⟩]⟩) := by decide
example : assignment (some sample) (lit "f") 4 (lit "x.go:4") 1 = .ok (lit "a") := by decide
example : assignment (some sample) (lit "h") 4 (lit "x.go:4") 1 = .ok (lit "x.go:4") := by decide
example : assignment (some sample) (lit "f") 4 (lit "x.go:4") 3 = .error .index := by decide
example : inBlocks (toksAll sample) 0 := by simp [sample, toksAll, toks, inBlocks]

end Verif.Ast

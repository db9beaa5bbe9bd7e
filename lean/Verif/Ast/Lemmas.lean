import Verif.Ast.Spec
/-!
# Lemmas: the walk is a run over the events, and the map of a block is the backward reading
-/
set_option autoImplicit false
namespace Verif.Ast
open Verif.Strconv Verif.Enc

/-- The state of the left-to-right run: the current map, the maps of the blocks around, and the last call found. -/
structure RState where
  cur : Option Scope
  stack : List (Option Scope)
  found : Option Call

/-- One event. -/
def stepTok (fname : Str) (target : Nat) (st : RState) : Tok → Go RState
  | .opn => .ok { st with cur := some (st.cur.getD []), stack := st.cur :: st.stack }
  | .cls => match st.stack with
    | [] => .ok st
    | s :: rest => .ok { st with cur := s, stack := rest }
  | .asg lhs src => match setScope st.cur lhs src with
    | .ok s => .ok { st with cur := s }
    | .error p => .error p
  | .call line fn args => match visitCall fname target st.cur line fn args with
    | .ok (some c) => .ok { st with found := some c }
    | .ok none => .ok st
    | .error p => .error p

def run (fname : Str) (target : Nat) : List Tok → RState → Go RState
  | [], st => .ok st
  | t :: ts, st =>
    match stepTok fname target st t with
    | .ok st' => run fname target ts st'
    | .error p => .error p

theorem run_append (fname : Str) (target : Nat) (a b : List Tok) (st : RState) :
    run fname target (a ++ b) st = (run fname target a st).bind (run fname target b) := by
  induction a generalizing st with
  | nil => rfl
  | cons t ts ih =>
    simp only [List.cons_append, run]
    cases stepTok fname target st t with
    | ok s => exact ih s
    | error p => rfl

/-- The result of a walk, put back among the enclosing blocks. -/
def lift (stack : List (Option Scope)) : Go WState → Go RState
  | .ok (s, f) => .ok ⟨s, stack, f⟩
  | .error p => .error p

mutual
theorem run_walk (fname : Str) (target : Nat) : ∀ (n : Node) (s : Option Scope) (stk : List (Option Scope)) (f : Option Call),
    run fname target (toks n) ⟨s, stk, f⟩ = lift stk (walk fname target n (s, f))
  | .block kids, s, stk, f => by
    simp only [toks, run, stepTok, run_append, run_walkAll fname target kids, walk]
    cases walkAll fname target kids (some (s.getD []), f) with
    | ok r => rfl
    | error p => rfl
  | .assign lhs src kids, s, stk, f => by
    simp only [toks, run, stepTok, walk]
    cases setScope s lhs src with
    | ok s' => exact run_walkAll fname target kids s' stk f
    | error p => rfl
  | .call line fn args kids, s, stk, f => by
    simp only [toks, run, stepTok, walk]
    cases visitCall fname target s line fn args with
    | ok o =>
      cases o with
      | some c => exact run_walkAll fname target kids s stk (some c)
      | none => exact run_walkAll fname target kids s stk f
    | error p => rfl
  | .other kids, s, stk, f => by
    simp only [toks, walk]
    exact run_walkAll fname target kids s stk f

theorem run_walkAll (fname : Str) (target : Nat) : ∀ (ns : List Node) (s : Option Scope) (stk : List (Option Scope)) (f : Option Call),
    run fname target (toksAll ns) ⟨s, stk, f⟩ = lift stk (walkAll fname target ns (s, f))
  | [], s, stk, f => rfl
  | n :: ns, s, stk, f => by
    simp only [toksAll, run_append, run_walk fname target n s stk f, walkAll]
    cases walk fname target n (s, f) with
    | ok r => exact run_walkAll fname target ns r.1 stk r.2
    | error p => rfl
end

theorem readScope_set (s s' : Option Scope) (lhs : List (Option Str)) (src : Str) (h : setScope s lhs src = .ok s') (k : Str) :
    readScope s' k = if some k ∈ lhs then src else readScope s k := by
  have gen : ∀ (lhs : List (Option Str)) (s s' : Option Scope), setScope s lhs src = .ok s' →
      readScope s' k = if some k ∈ lhs then src else readScope s k := by
    intro lhs
    induction lhs with
    | nil => intro s s' h; simp only [setScope, List.foldl_nil, Except.ok.injEq] at h; subst h; simp
    | cons l lhs ih =>
      intro s s' h
      cases l with
      | none =>
        have h' : setScope s lhs src = .ok s' := h
        rw [ih s s' h']; simp
      | some x =>
        cases s with
        | none =>
          exfalso
          have h' : lhs.foldl (fun acc l =>
            match acc, l with
            | .error p, _ => .error p
            | .ok s, none => .ok s
            | .ok none, some _ => .error .nilMap
            | .ok (some s), some k => .ok (some ((k, src) :: s))) (.error .nilMap : Go (Option Scope)) = .ok s' := h
          have stay : ∀ l : List (Option Str), l.foldl (fun acc l =>
            match acc, l with
            | .error p, _ => .error p
            | .ok s, none => .ok s
            | .ok none, some _ => .error .nilMap
            | .ok (some s), some k => .ok (some ((k, src) :: s))) (.error .nilMap : Go (Option Scope)) = .error .nilMap := by
            intro l; induction l with
            | nil => rfl
            | cons a l ih => exact ih
          rw [stay] at h'; cases h'
        | some sc =>
          have h' : setScope (some ((x, src) :: sc)) lhs src = .ok s' := h
          rw [ih _ s' h']
          by_cases hk : some k ∈ lhs
          · simp [hk]
          · by_cases hx : x = k
            · subst hx; simp [readScope]
            · simp [hk, readScope, hx, Ne.symm hx]
  exact gen lhs s s' h

theorem setScope_some (sc : Scope) (lhs : List (Option Str)) (src : Str) : ∃ sc', setScope (some sc) lhs src = .ok (some sc') := by
  induction lhs generalizing sc with
  | nil => exact ⟨sc, rfl⟩
  | cons l lhs ih =>
    cases l with
    | none => exact ih sc
    | some k => exact ih ((k, src) :: sc)

/-- The maps agree with the backward reading of what was passed so far. -/
structure Agrees (pre : List Tok) (st : RState) : Prop where
  cur : ∀ k, readScope st.cur k = (lastAssigned k pre.reverse 0).getD []
  stack : ∀ (j : Nat) (s : Option Scope), st.stack[j]? = some s → ∀ k, readScope s k = (lastAssigned k pre.reverse (j + 1)).getD []

/-- A sequence of events that never closes more blocks than `d`. -/
def Closable : List Tok → Nat → Prop
  | [], _ => True
  | .opn :: ts, d => Closable ts (d + 1)
  | .cls :: ts, d => 0 < d ∧ Closable ts (d - 1)
  | _ :: ts, d => Closable ts d

mutual
theorem closable_toks : ∀ (n : Node) (ts : List Tok) (d : Nat), Closable ts d → Closable (toks n ++ ts) d
  | .block kids, ts, d, h => by
    simp only [toks, List.cons_append, List.append_assoc, Closable]
    exact closable_toksAll kids ([.cls] ++ ts) (d + 1) (by simp only [List.cons_append, List.nil_append, Closable]; exact ⟨by omega, h⟩)
  | .assign lhs src kids, ts, d, h => by simp only [toks, List.cons_append, Closable]; exact closable_toksAll kids ts d h
  | .call line fn args kids, ts, d, h => by simp only [toks, List.cons_append, Closable]; exact closable_toksAll kids ts d h
  | .other kids, ts, d, h => by simp only [toks]; exact closable_toksAll kids ts d h

theorem closable_toksAll : ∀ (ns : List Node) (ts : List Tok) (d : Nat), Closable ts d → Closable (toksAll ns ++ ts) d
  | [], ts, d, h => h
  | n :: ns, ts, d, h => by
    simp only [toksAll, List.append_assoc]
    exact closable_toks n _ d (closable_toksAll ns ts d h)
end

theorem agrees_step {fname : Str} {target : Nat} {pre : List Tok} {st st' : RState} {t : Tok} (h : Agrees pre st)
    (hc : t = .cls → st.stack ≠ []) (hs : stepTok fname target st t = .ok st') : Agrees (pre ++ [t]) st' := by
  cases t with
  | opn =>
    simp only [stepTok, Except.ok.injEq] at hs; subst hs
    constructor
    · intro k
      have := h.cur k
      simp only [List.reverse_append, List.reverse_singleton, List.singleton_append, lastAssigned, Nat.zero_sub]
      rw [← this]
      cases st.cur <;> simp [readScope]
    · intro j s hj k
      simp only [List.reverse_append, List.reverse_singleton, List.singleton_append, lastAssigned, Nat.add_sub_cancel]
      cases j with
      | zero => simp only [List.getElem?_cons_zero, Option.some.injEq] at hj; subst hj; exact h.cur k
      | succ j => simp only [List.getElem?_cons_succ] at hj; exact h.stack j s hj k
  | cls =>
    simp only [stepTok] at hs
    split at hs
    · rename_i he; exact absurd he (hc rfl)
    · rename_i s rest he
      simp only [Except.ok.injEq] at hs; subst hs
      constructor
      · intro k
        simp only [List.reverse_append, List.reverse_singleton, List.singleton_append, lastAssigned]
        exact h.stack 0 s (by rw [he]; rfl) k
      · intro j s' hj k
        simp only [List.reverse_append, List.reverse_singleton, List.singleton_append, lastAssigned]
        exact h.stack (j + 1) s' (by rw [he]; exact hj) k
  | asg lhs src =>
    simp only [stepTok] at hs
    split at hs
    · rename_i s hset
      simp only [Except.ok.injEq] at hs; subst hs
      constructor
      · intro k
        simp only [List.reverse_append, List.reverse_singleton, List.singleton_append, lastAssigned]
        rw [readScope_set _ _ _ _ hset]
        split
        · simp
        · exact h.cur k
      · intro j s' hj k
        simp only [List.reverse_append, List.reverse_singleton, List.singleton_append, lastAssigned]
        exact h.stack j s' hj k
    · cases hs
  | call line fn args =>
    have same : st'.cur = st.cur ∧ st'.stack = st.stack := by
      simp only [stepTok] at hs
      split at hs
      · simp only [Except.ok.injEq] at hs; subst hs; exact ⟨rfl, rfl⟩
      · simp only [Except.ok.injEq] at hs; subst hs; exact ⟨rfl, rfl⟩
      · cases hs
    constructor
    · intro k
      simp only [List.reverse_append, List.reverse_singleton, List.singleton_append, lastAssigned, same.1]
      exact h.cur k
    · intro j s' hj k
      simp only [List.reverse_append, List.reverse_singleton, List.singleton_append, lastAssigned]
      rw [same.2] at hj
      exact h.stack j s' hj k

theorem matchFn_iff (fname : Str) (fn : Fn) (name : Str) : matchFn fname fn = some name ↔ Names fname fn name := by
  constructor
  · intro h
    cases fn with
    | ident n => simp only [matchFn] at h; split at h <;> simp_all; subst_vars; exact .ident
    | sel x n =>
      cases x with
      | none => simp only [matchFn] at h; split at h <;> simp_all; subst_vars; exact .method
      | some x => simp only [matchFn] at h; split at h <;> simp_all; subst_vars; exact .qualified x
    | other => simp [matchFn] at h
  · intro h; cases h <;> simp [matchFn]

theorem readArgs_ok (s : Option Scope) (args : List ArgInfo) (as : List Arg) :
    readArgs s args = .ok as ↔ (∀ a ∈ args, a.lit ≠ some none) ∧ as = args.map (fun a => ⟨shown a, readScope s (shown a)⟩) := by
  induction args generalizing as with
  | nil => simp [readArgs, eq_comm]
  | cons a args ih =>
    rcases ha : a.lit with _ | _ | body
    · have hsh : shown a = a.src := by simp [shown, ha]
      simp only [readArgs, ha, List.mem_cons, forall_eq_or_imp, List.map_cons, hsh]
      cases hr : readArgs s args with
      | error p =>
        simp only [Except.map, reduceCtorEq, false_iff]
        rintro ⟨⟨_, h⟩, _⟩
        have := (ih _).2 ⟨h, rfl⟩
        rw [hr] at this; cases this
      | ok l =>
        obtain ⟨h1, h2⟩ := (ih l).1 hr
        simp only [Except.map, Except.ok.injEq]
        constructor
        · rintro rfl; exact ⟨⟨by simp, h1⟩, by rw [h2]⟩
        · rintro ⟨_, rfl⟩; rw [h2]
    · simp only [readArgs, ha, reduceCtorEq, false_iff]
      rintro ⟨h, _⟩; exact h a (by simp) ha
    · have hsh : shown a = body := by simp [shown, ha]
      simp only [readArgs, ha, List.mem_cons, forall_eq_or_imp, List.map_cons, hsh]
      cases hr : readArgs s args with
      | error p =>
        simp only [Except.map, reduceCtorEq, false_iff]
        rintro ⟨⟨_, h⟩, _⟩
        have := (ih _).2 ⟨h, rfl⟩
        rw [hr] at this; cases this
      | ok l =>
        obtain ⟨h1, h2⟩ := (ih l).1 hr
        simp only [Except.map, Except.ok.injEq]
        constructor
        · rintro rfl; exact ⟨⟨by simp, h1⟩, by rw [h2]⟩
        · rintro ⟨_, rfl⟩; rw [h2]

end Verif.Ast

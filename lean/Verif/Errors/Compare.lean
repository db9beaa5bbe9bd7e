import Verif.Errors.Props
/-!
# Recognising errors with `errors.Is` (C160) (ctx/error.go, http/error.go)

`Errors.Model` has `errors.Is` for the targets the code itself asks for. Here the target is any error, and `==` is Go's: interfaces are
equal if their types and values are; comparing values of a type that has no `==` panics. `ctx.Error` has a slice and so no `==`;
`http.Error` has `==`, but comparing two of them compares what they carry.
-/
set_option autoImplicit false
namespace Verif.Errors.Compare
open Verif.Errors

/-- What a comparison gives. -/
inductive Ans where
  | yes
  | no
  | panic
  deriving DecidableEq

/-- `a || b` -/
def Ans.or : Ans → Ans → Ans
  | .yes, _ => .yes
  | .panic, _ => .panic
  | .no, b => b

/-- A `bool` -/
def Ans.of (b : Bool) : Ans := if b then .yes else .no

variable {S C : Type}

/-- `a == b` for errors. http/error.go L18-21, ctx/error.go L27-31. Structs are compared field by field until two differ. -/
def eq : Err S C → Err S C → Ans
  | .httpErr c none, .httpErr d none => .of (decide (c = d))
  | .httpErr c (some a), .httpErr d (some b) => if c = d then eq a b else .no
  | .ctxErr _ _ _, .ctxErr _ _ _ => .panic
  | a, b => match a.ident, b.ident with
    | some i, some j => .of (decide (i = j))
    | _, _ => .no

/-- `ctx.Error` is the only type here without `==`. ctx/error.go L29. -/
def comparable : Err S C → Bool
  | .ctxErr _ _ _ => false
  | _ => true

/-- The comparison `errors.Is` makes at every error it visits. -/
def same (t e : Err S C) : Ans := if comparable t then eq e t else .no

mutual
/-- `errors.Is(err, t)` (Go 1.20) for errors that are not nil, with the method of ctx/error.go L41-48. -/
def isT (t : Err S C) : Err S C → Ans
  | .leaf i m => same t (.leaf i m)
  | .wrap i m e => (same t (.wrap i m e)).or (isT t e)
  | .join i m es => (same t (.join i m es)).or (isTAny t es)
  | .ctxErr e s c => (same t (.ctxErr e s c)).or ((if comparable t then isT t e else .yes).or (isT t e)) -- `==`, the `Is` method, `Unwrap`
  | .httpErr c none => same t (.httpErr c none)
  | .httpErr c (some e) => (same t (.httpErr c (some e))).or (isT t e)

/-- `errors.Is` over `Unwrap() []error` -/
def isTAny (t : Err S C) : List (Err S C) → Ans
  | [] => .no
  | e :: es => (isT t e).or (isTAny t es)
end

/-! ### what is promised -/

/-- The same error: the same pointer, or `http.Error`s with the same code and the same cause. -/
inductive Same : Err S C → Err S C → Prop where
  | ident {a b : Err S C} (i : Nat) (ha : a.ident = some i) (hb : b.ident = some i) : Same a b
  | code (c : Int) : Same (.httpErr c none) (.httpErr c none)
  | cause (c : Int) {a b : Err S C} (h : Same a b) : Same (.httpErr c (some a)) (.httpErr c (some b))

/-- An `http.Error` whose cause is a `ctx.Error`, at any depth of `http.Error`s. `http.NewErrorf` makes these. -/
def carries : Err S C → Bool
  | .httpErr _ (some (.ctxErr _ _ _)) => true
  | .httpErr _ (some e) => carries e
  | _ => false

theorem of_or (a b : Bool) : (Ans.of a).or (Ans.of b) = Ans.of (a || b) := by cases a <;> cases b <;> rfl
theorem of_yes (a : Bool) : Ans.of a = .yes ↔ a = true := by cases a <;> simp [Ans.of]
theorem of_panic (a : Bool) : Ans.of a ≠ .panic := by cases a <;> simp [Ans.of]

theorem same_http_cause (c d : Int) (a b : Err S C) : Same (.httpErr c (some a)) (.httpErr d (some b)) ↔ c = d ∧ Same a b := by
  constructor
  · intro h
    cases h with
    | ident i ha hb => simp [Err.ident] at ha
    | cause c h => exact ⟨rfl, h⟩
  · rintro ⟨rfl, h⟩; exact .cause c h

theorem same_http_code (c d : Int) : Same (S := S) (C := C) (.httpErr c none) (.httpErr d none) ↔ c = d := by
  constructor
  · intro h
    cases h with
    | ident i ha hb => simp [Err.ident] at ha
    | code c => rfl
  · rintro rfl; exact .code c

theorem same_ident (a b : Err S C) (h : a.ident ≠ none ∨ b.ident ≠ none) : Same a b ↔ ∃ i, a.ident = some i ∧ b.ident = some i := by
  constructor
  · intro hs
    cases hs with
    | ident i ha hb => exact ⟨i, ha, hb⟩
    | code c => simp [Err.ident] at h
    | cause c hs => simp [Err.ident] at h
  · rintro ⟨i, ha, hb⟩; exact .ident i ha hb

/-- Errors that are neither both `http.Error`s nor both `ctx.Error`s are compared by their pointers. -/
theorem eq_ident (a b : Err S C) (h : a.ident ≠ none ∨ b.ident ≠ none) : eq a b = .of (decide (∃ i, a.ident = some i ∧ b.ident = some i)) := by
  have key : eq a b = match a.ident, b.ident with
    | some i, some j => .of (decide (i = j))
    | _, _ => .no := by
    rcases a with _ | _ | _ | _ | ⟨_, _ | _⟩ <;> rcases b with _ | _ | _ | _ | ⟨_, _ | _⟩ <;> first | rfl | (simp [Err.ident] at h; done)
  rw [key]
  cases ha : a.ident with
  | none => simp [Ans.of]
  | some i =>
    cases hb : b.ident with
    | none => simp [Ans.of]
    | some j => simp [eq_comm]

theorem eq_spec : ∀ (e t : Err S C), comparable t = true → carries t = false → eq e t ≠ .panic ∧ (eq e t = .yes ↔ Same e t)
  | .httpErr c none, .httpErr d none, _, _ => by rw [eq, of_yes, same_http_code]; exact ⟨of_panic _, by simp⟩
  | .httpErr c none, .httpErr d (some b), _, _ => by
    refine ⟨by simp [eq, Err.ident], ?_⟩
    constructor
    · intro h; simp [eq, Err.ident] at h
    · intro h; cases h; rename_i ha _; simp [Err.ident] at ha
  | .httpErr c (some a), .httpErr d none, _, _ => by
    refine ⟨by simp [eq, Err.ident], ?_⟩
    constructor
    · intro h; simp [eq, Err.ident] at h
    · intro h; cases h; rename_i ha _; simp [Err.ident] at ha
  | .httpErr c (some a), .httpErr d (some b), _, h2 => by
    rw [eq, same_http_cause]
    have hb : comparable b = true ∧ carries b = false := by
      cases b <;> simp_all [carries, comparable]
    have ih := eq_spec a b hb.1 hb.2
    by_cases h : c = d
    · rw [if_pos h]; simp only [h, true_and]; exact ih
    · rw [if_neg h]; simp [h]
  | e, .leaf j m, _, _ => by
    rw [eq_ident _ _ (.inr (by simp [Err.ident])), same_ident _ _ (.inr (by simp [Err.ident])), of_yes]; exact ⟨of_panic _, by simp⟩
  | e, .wrap j m b, _, _ => by
    rw [eq_ident _ _ (.inr (by simp [Err.ident])), same_ident _ _ (.inr (by simp [Err.ident])), of_yes]; exact ⟨of_panic _, by simp⟩
  | e, .join j m bs, _, _ => by
    rw [eq_ident _ _ (.inr (by simp [Err.ident])), same_ident _ _ (.inr (by simp [Err.ident])), of_yes]; exact ⟨of_panic _, by simp⟩
  | .leaf i m, .httpErr d b, _, _ => by
    rw [eq_ident _ _ (.inl (by simp [Err.ident])), same_ident _ _ (.inl (by simp [Err.ident])), of_yes]; exact ⟨of_panic _, by simp⟩
  | .wrap i m a, .httpErr d b, _, _ => by
    rw [eq_ident _ _ (.inl (by simp [Err.ident])), same_ident _ _ (.inl (by simp [Err.ident])), of_yes]; exact ⟨of_panic _, by simp⟩
  | .join i m as, .httpErr d b, _, _ => by
    rw [eq_ident _ _ (.inl (by simp [Err.ident])), same_ident _ _ (.inl (by simp [Err.ident])), of_yes]; exact ⟨of_panic _, by simp⟩
  | .ctxErr a s c, .httpErr d b, _, _ => by
    have : eq (.ctxErr a s c) (.httpErr d b) = .no := by cases b <;> rfl
    rw [this]
    refine ⟨by simp, by simp, ?_⟩
    intro h; cases h; rename_i ha _; simp [Err.ident] at ha
  | _, .ctxErr _ _ _, h, _ => by simp [comparable] at h

/-- What is found at an error: the target itself, or any `ctx.Error` if the target is one. -/
def Hit (t n : Err S C) : Prop := if comparable t then Same n t else n.ctx?.isSome = true

theorem or_spec (a b : Ans) (ha : a ≠ .panic) (hb : b ≠ .panic) : a.or b ≠ .panic ∧ (a.or b = .yes ↔ a = .yes ∨ b = .yes) := by
  cases a <;> cases b <;> simp_all [Ans.or]

theorem same_spec (t e : Err S C) (h : carries t = false) : same t e ≠ .panic ∧ (same t e = .yes ↔ comparable t = true ∧ Same e t) := by
  unfold same
  by_cases hc : comparable t = true
  · rw [if_pos hc]
    have := eq_spec e t hc h
    simp [hc, this]
  · simp [hc]

mutual
theorem isT_spec (t : Err S C) (h : carries t = false) : ∀ e : Err S C, isT t e ≠ .panic ∧ (isT t e = .yes ↔ ∃ n ∈ e.nodes, Hit t n)
  | .leaf i m => by
    have := same_spec t (.leaf i m) h
    refine ⟨this.1, ?_⟩
    rw [isT, this.2]; simp only [Err.nodes, List.mem_singleton, exists_eq_left, Hit]
    by_cases hc : comparable t = true <;> simp [hc, Err.ctx?]
  | .wrap i m e => by
    have h1 := same_spec t (.wrap i m e) h
    have h2 := isT_spec t h e
    have h3 := or_spec _ _ h1.1 h2.1
    refine ⟨h3.1, ?_⟩
    rw [isT, h3.2, h1.2, h2.2]; simp only [Err.nodes, List.mem_cons, exists_eq_or_imp]
    refine or_congr ?_ Iff.rfl
    by_cases hc : comparable t = true <;> simp [Hit, hc, Err.ctx?]
  | .join i m es => by
    have h1 := same_spec t (.join i m es) h
    have h2 := isTAny_spec t h es
    have h3 := or_spec _ _ h1.1 h2.1
    refine ⟨h3.1, ?_⟩
    rw [isT, h3.2, h1.2, h2.2]; simp only [Err.nodes, List.mem_cons, exists_eq_or_imp]
    refine or_congr ?_ Iff.rfl
    by_cases hc : comparable t = true <;> simp [Hit, hc, Err.ctx?]
  | .ctxErr e s c => by
    have h1 := same_spec t (.ctxErr e s c) h
    have h2 := isT_spec t h e
    rw [isT]
    by_cases hc : comparable t = true
    · rw [if_pos hc]
      have h3 := or_spec _ _ h2.1 h2.1
      have h4 := or_spec _ _ h1.1 h3.1
      refine ⟨h4.1, ?_⟩
      rw [h4.2, h3.2, h1.2, h2.2]; simp only [Err.nodes, List.mem_cons, exists_eq_or_imp, or_self]
      refine or_congr ?_ Iff.rfl
      simp [Hit, hc]
    · rw [if_neg hc]
      have h3 := or_spec .yes (isT t e) (by simp) h2.1
      have h4 := or_spec _ _ h1.1 h3.1
      refine ⟨h4.1, ?_⟩
      rw [h4.2, h3.2]; simp only [Err.nodes, List.mem_cons, exists_eq_or_imp, true_or, or_true, true_iff]
      left; simp [Hit, hc, Err.ctx?]
  | .httpErr c none => by
    have := same_spec t (.httpErr c none) h
    refine ⟨this.1, ?_⟩
    rw [isT, this.2]; simp only [Err.nodes, List.mem_singleton, exists_eq_left, Hit]
    by_cases hc : comparable t = true <;> simp [hc, Err.ctx?]
  | .httpErr c (some e) => by
    have h1 := same_spec t (.httpErr c (some e)) h
    have h2 := isT_spec t h e
    have h3 := or_spec _ _ h1.1 h2.1
    refine ⟨h3.1, ?_⟩
    rw [isT, h3.2, h1.2, h2.2]; simp only [Err.nodes, List.mem_cons, exists_eq_or_imp]
    refine or_congr ?_ Iff.rfl
    by_cases hc : comparable t = true <;> simp [Hit, hc, Err.ctx?]

theorem isTAny_spec (t : Err S C) (h : carries t = false) : ∀ es : List (Err S C), isTAny t es ≠ .panic ∧ (isTAny t es = .yes ↔ ∃ n ∈ nodesAll es, Hit t n)
  | [] => by simp [isTAny, nodesAll]
  | e :: es => by
    have h1 := isT_spec t h e
    have h2 := isTAny_spec t h es
    have h3 := or_spec _ _ h1.1 h2.1
    refine ⟨h3.1, ?_⟩
    rw [isTAny, h3.2, h1.2, h2.2]
    simp only [nodesAll, List.mem_append, or_and_right, exists_or]
end

/-! ### C160 -/

/-- C160, what holds: asking for an error that is no `http.Error` with a `ctx.Error` in it does not panic, and finds it exactly if the error
asked has it among its causes. What is missing: the errors `http.NewErrorf` makes (`C160_http_violated`), and that a `ctx.Error` is told from
another one (`C160_ctx_violated`). -/
theorem C160_found_partial (t e : Err S C) (h : carries t = false) (hc : comparable t = true) : isT t e ≠ .panic ∧ (isT t e = .yes ↔ ∃ n ∈ e.nodes, Same n t) := by
  have := isT_spec t h e
  simpa [Hit, hc] using this

theorem same_refl : ∀ e : Err S C, comparable e = true → carries e = false → Same e e
  | .leaf i m, _, _ => .ident i rfl rfl
  | .wrap i m e, _, _ => .ident i rfl rfl
  | .join i m es, _, _ => .ident i rfl rfl
  | .httpErr c none, _, _ => .code c
  | .httpErr c (some e), _, h => .cause c (same_refl e (by cases e <;> simp_all [carries, comparable]) (by cases e <;> simp_all [carries]))
  | .ctxErr _ _ _, h, _ => by simp [comparable] at h

theorem self_mem (e : Err S C) : e ∈ e.nodes := by
  cases e with
  | httpErr c e => cases e <;> simp [Err.nodes]
  | _ => simp [Err.nodes]

/-- C160, what holds: such an error is itself, and stays recognisable however it is passed on (`ctx.WrapError`, `ctx.NewErrorf`, `fmt.Errorf`,
`http.NewErrorf`). What is missing: as above. -/
theorem C160_passed_partial (t : Err S C) (h : carries t = false) (hc : comparable t = true) (ops : List (WrapOp S C)) :
    isT t (ops.foldl WrapOp.apply t) = .yes := by
  rw [(C160_found_partial t _ h hc).2]
  refine ⟨t, ?_, same_refl t hc h⟩
  have up : ∀ (e : Err S C) (op : WrapOp S C), ∀ n ∈ e.nodes, n ∈ (op.apply e).nodes := by
    have mw : ∀ (s : S) (c : C) (e : Err S C), ∀ n ∈ e.nodes, n ∈ (maybeWrap s c e).nodes := by
      intro s c e n hn
      unfold maybeWrap
      split
      · exact hn
      · simp [Err.nodes, hn]
    intro e op n hn
    cases op with
    | wrapError s c => exact mw s c e n hn
    | newErrorf s c id m => exact mw s c _ n (by simp [errorf, Err.nodes, hn])
    | errorf id m => simp [WrapOp.apply, errorf, Err.nodes, hn]
    | http s c code id m =>
      simp only [WrapOp.apply, httpNewErrorf, Err.nodes]
      exact List.mem_cons_of_mem _ (mw s c _ n (by simp [errorf, Err.nodes, hn]))
  have all : ∀ (ops : List (WrapOp S C)) (e : Err S C), ∀ n ∈ e.nodes, n ∈ (ops.foldl WrapOp.apply e).nodes := by
    intro ops
    induction ops with
    | nil => exact fun e n hn => hn
    | cons op ops ih => exact fun e n hn => ih _ n (up e op n hn)
  exact all ops t t (self_mem t)

/-- C160, violated: asking whether an error made by `http.NewErrorf` is itself panics, whatever it is made of, if no cause has a stack of its
own; so does asking an error that wraps it with `fmt.Errorf` any number of times. -/
theorem C160_http_violated (s : S) (c : C) (code : Int) (id : Nat) (m : String) (wrapped : List (Err S C)) (h : ∀ e ∈ wrapped, e.nodes.filterMap Err.ctx? = [])
    (ws : List (Nat × String)) :
    let e := httpNewErrorf s c code id m wrapped
    isT e (ws.foldl (fun x w => errorf w.1 w.2 [x]) e) = .panic := by
  have hno : ∀ (es : List (Err S C)), (∀ e ∈ es, e.nodes.filterMap Err.ctx? = []) → isAny (S := S) (C := C) .ctxError es = false := by
    intro es hes
    induction es with
    | nil => rfl
    | cons e es ih =>
      have h1 : e.is .ctxError = false := by
        rw [Bool.eq_false_iff]; intro hx
        obtain ⟨n, hn, hc⟩ := (is_ctx_iff e).1 hx
        have := List.filterMap_eq_nil_iff.1 (hes e (by simp)) n hn
        rw [this] at hc; cases hc
      simp [isAny, h1, ih (fun x hx => hes x (by simp [hx]))]
  have hx : ∃ x, httpNewErrorf s c code id m wrapped = .httpErr code (some (.ctxErr x s c)) := by
    have hf : (errorf id m wrapped).is .ctxError = false := by
      match wrapped, h with
      | [], _ => rfl
      | [e], h => have := hno [e] h; simpa [errorf, Err.is, isAny] using this
      | e :: e' :: es, h => have := hno (e :: e' :: es) h; simpa [errorf, Err.is] using this
    exact ⟨errorf id m wrapped, by simp [httpNewErrorf, newErrorf, maybeWrap, hf]⟩
  obtain ⟨x, hx⟩ := hx
  intro e
  have he : e = .httpErr code (some (.ctxErr x s c)) := hx
  have base : isT e e = .panic := by
    rw [he]; simp [isT, same, comparable, eq, Ans.or]
  have step : ∀ (ws : List (Nat × String)) (y : Err S C), isT e y = .panic → isT e (ws.foldl (fun x w => errorf w.1 w.2 [x]) y) = .panic := by
    intro ws
    induction ws with
    | nil => exact fun y hy => hy
    | cons w ws ih =>
      intro y hy
      refine ih _ ?_
      have : same e (.wrap w.1 w.2 y) = .no := by rw [he]; simp [same, comparable, eq, Err.ident]
      simp [errorf, isT, this, Ans.or, hy]
  exact step ws e base

/-- An unauthorized request: the error is asked for itself, and for one with another code, before and after being wrapped. -/
example : let e : Err Nat Unit := httpNewErrorf 7 () 401 1 "no token" []
    let f : Err Nat Unit := httpNewErrorf 7 () 404 2 "no such thing" []
    isT e e = .panic ∧ isT f e = .no ∧ isT e (errorf 3 "in handler" [e]) = .panic ∧ isT (.leaf 1 "no token") (errorf 3 "in handler" [e]) = .yes := by decide +kernel

/-- A sentinel is found through all layers; an `http.Error` without cause is found by its code. -/
example : let eof : Err Nat Unit := .leaf 9 "EOF"
    let e := [WrapOp.wrapError 1 (), .http 2 () 500 3 "reading", .errorf 4 "again", .newErrorf 5 () 6 "last"].foldl WrapOp.apply eof
    isT eof e = .yes ∧ isT (.leaf 8 "EOF") e = .no ∧ isT (.httpErr 404 none) (.join 5 "both" [e, .httpErr 404 none]) = .yes ∧ isT (.httpErr 500 none) e = .no := by decide +kernel

/-- C160, violated: every `ctx.Error` is every other: errors with different texts and causes can not be told apart. -/
theorem C160_ctx_violated (s s' : S) (c c' : C) (a b : Err S C) : isT (.ctxErr a s c) (.ctxErr b s' c') = .yes := by
  simp [isT, same, comparable, Ans.or]

/-- C160: the targets the code asks for (`ctx/error.go` L51-56, `utils/errors.go` L16) never panic, and are looked for as in C18 and C19. -/
theorem C160_targets (e : Err S C) (i : Nat) (m : String) (x : Err S C) (s : S) (c : C) :
    isT (.leaf i m) e = .of (e.is (.value i)) ∧ isT (.ctxErr x s c) e = .of (e.is .ctxError) := by
  have dec : ∀ (a : Ans) (b : Bool), a ≠ .panic → (a = .yes ↔ b = true) → a = .of b := by
    intro a b h1 h2
    cases a <;> cases b <;> simp_all [Ans.of]
  constructor
  · have := C160_found_partial (.leaf i m) e rfl rfl
    refine dec _ _ this.1 ?_
    rw [this.2, is_value_iff]
    refine exists_congr fun n => and_congr_right fun _ => ?_
    rw [same_ident _ _ (.inr (by simp [Err.ident]))]
    simp [Err.ident]
  · have := isT_spec (.ctxErr x s c) rfl e
    refine dec _ _ this.1 ?_
    rw [this.2, is_ctx_iff]
    simp [Hit, comparable]

end Verif.Errors.Compare

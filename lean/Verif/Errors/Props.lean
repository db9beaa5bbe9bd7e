import Verif.Errors.Spec
/-!
# Properties of error handling (C18, C19, C20)
-/
set_option autoImplicit false
namespace Verif.Errors

variable {S C : Type}

mutual
theorem is_value_iff (id : Nat) : ∀ e : Err S C, e.is (.value id) = true ↔ ∃ n ∈ e.nodes, n.ident = some id
  | .leaf i m => by simp [Err.is, Err.nodes, Err.ident]; exact eq_comm
  | .wrap i m e => by
    have := is_value_iff id e
    simp only [Err.is, Err.nodes, Bool.or_eq_true, this, List.mem_cons, exists_eq_or_imp, Err.ident]
    simp [eq_comm (a := id) (b := i)]
  | .join i m es => by
    have := isAny_value_iff id es
    simp only [Err.is, Err.nodes, Bool.or_eq_true, this, List.mem_cons, exists_eq_or_imp, Err.ident]
    simp [eq_comm (a := id) (b := i)]
  | .ctxErr e s c => by
    have := is_value_iff id e
    simp only [Err.is, Err.nodes, Bool.or_eq_true, this, List.mem_cons, exists_eq_or_imp, Err.ident]
    simp
  | .httpErr code none => by simp [Err.is, Err.nodes, Err.ident]
  | .httpErr code (some e) => by
    have := is_value_iff id e
    simp only [Err.is, Err.nodes, this, List.mem_cons, exists_eq_or_imp, Err.ident]
    simp

theorem isAny_value_iff (id : Nat) : ∀ es : List (Err S C), isAny (.value id) es = true ↔ ∃ n ∈ nodesAll es, n.ident = some id
  | [] => by simp [isAny, nodesAll]
  | e :: es => by
    have h1 := is_value_iff id e
    have h2 := isAny_value_iff id es
    simp only [isAny, nodesAll, Bool.or_eq_true, h1, h2, List.mem_append, or_and_right, exists_or]
end

mutual
theorem is_ctx_iff : ∀ e : Err S C, e.is .ctxError = true ↔ ∃ n ∈ e.nodes, n.ctx?.isSome = true
  | .leaf i m => by simp [Err.is, Err.nodes, Err.ctx?]
  | .wrap i m e => by
    have := is_ctx_iff e
    simp only [Err.is, Err.nodes, Bool.or_eq_true, this, List.mem_cons, exists_eq_or_imp, Err.ctx?]
    simp
  | .join i m es => by
    have := isAny_ctx_iff es
    simp only [Err.is, Err.nodes, Bool.or_eq_true, this, List.mem_cons, exists_eq_or_imp, Err.ctx?]
    simp
  | .ctxErr e s c => by simp [Err.is, Err.nodes, Err.ctx?]
  | .httpErr code none => by simp [Err.is, Err.nodes, Err.ctx?]
  | .httpErr code (some e) => by
    have := is_ctx_iff e
    simp only [Err.is, Err.nodes, this, List.mem_cons, exists_eq_or_imp, Err.ctx?]
    simp

theorem isAny_ctx_iff : ∀ es : List (Err S C), isAny .ctxError es = true ↔ ∃ n ∈ nodesAll es, n.ctx?.isSome = true
  | [] => by simp [isAny, nodesAll]
  | e :: es => by
    have h1 := is_ctx_iff e
    have h2 := isAny_ctx_iff es
    simp only [isAny, nodesAll, Bool.or_eq_true, h1, h2, List.mem_append, or_and_right, exists_or]
end

mutual
theorem asHttp_eq : ∀ e : Err S C, e.asHttp.map (·.1) = (e.nodes.filterMap Err.code?).head?
  | .leaf i m => by simp [Err.asHttp, Err.nodes, Err.code?]
  | .wrap i m e => by rw [Err.asHttp, asHttp_eq e]; simp [Err.nodes, Err.code?, List.findSome?_cons]
  | .join i m es => by rw [Err.asHttp, asHttpAny_eq es]; simp [Err.nodes, Err.code?, List.findSome?_cons]
  | .ctxErr e s c => by rw [Err.asHttp, asHttp_eq e]; simp [Err.nodes, Err.code?, List.findSome?_cons]
  | .httpErr code none => by simp [Err.asHttp, Err.nodes, Err.code?]
  | .httpErr code (some e) => by simp [Err.asHttp, Err.nodes, Err.code?]

theorem asHttpAny_eq : ∀ es : List (Err S C), (asHttpAny es).map (·.1) = ((nodesAll es).filterMap Err.code?).head?
  | [] => rfl
  | e :: es => by
    have h1 := asHttp_eq e
    have h2 := asHttpAny_eq es
    simp only [asHttpAny, nodesAll, List.filterMap_append, List.head?_append]
    rw [← h1, ← h2]
    cases e.asHttp <;> simp
end

mutual
theorem asCtx_eq : ∀ e : Err S C, e.asCtx = (e.nodes.filterMap Err.ctx?).head?
  | .leaf i m => by simp [Err.asCtx, Err.nodes, Err.ctx?]
  | .wrap i m e => by rw [Err.asCtx, asCtx_eq e]; simp [Err.nodes, Err.ctx?, List.findSome?_cons]
  | .join i m es => by rw [Err.asCtx, asCtxAny_eq es]; simp [Err.nodes, Err.ctx?, List.findSome?_cons]
  | .ctxErr e s c => by simp [Err.asCtx, Err.nodes, Err.ctx?]
  | .httpErr code none => by simp [Err.asCtx, Err.nodes, Err.ctx?]
  | .httpErr code (some e) => by rw [Err.asCtx, asCtx_eq e]; simp [Err.nodes, Err.ctx?, List.findSome?_cons]

theorem asCtxAny_eq : ∀ es : List (Err S C), asCtxAny es = ((nodesAll es).filterMap Err.ctx?).head?
  | [] => rfl
  | e :: es => by
    have h1 := asCtx_eq e
    have h2 := asCtxAny_eq es
    simp only [asCtxAny, nodesAll, List.filterMap_append, List.head?_append]
    rw [← h1, ← h2]
    cases e.asCtx <;> simp
end

/-! ### C18 -/

/-- C18: `ErrorGate` returns nil iff the function returned nil or an error whose tree contains the marker it was given; any other
error comes back unchanged. -/
theorem C18_error_gate (f : Err S C → Option (Err S C)) :
    (errorGate f = none ↔ f gate = none ∨ ∃ e, f gate = some e ∧ ∃ n ∈ e.nodes, n.ident = some gateId) ∧
    (∀ e, errorGate f = some e → f gate = some e) := by
  unfold errorGate
  cases hf : f gate with
  | none => simp [is]
  | some e =>
    have := is_value_iff gateId e
    simp only [is]
    by_cases h : e.is (.value gateId) = true
    · simp [h]; exact this.1 h
    · simp only [h]
      refine ⟨?_, by intro e' he'; exact he'⟩
      simp only [Bool.false_eq_true, if_false, reduceCtorEq, false_or, false_iff, Option.some.injEq, not_exists, not_and]
      rintro e' rfl n hn hid
      exact h (this.2 ⟨n, hn, hid⟩)

/-! ### C19 -/

/-- C19: `WrapError(nil)` is nil, and otherwise never nil. -/
theorem C19_wrap_nil (s : S) (c : C) (e : Option (Err S C)) : wrapError s c e = none ↔ e = none := by
  cases e <;> simp [wrapError]

/-- C19: `WrapError` and `NewErrorf` return an error unchanged when its tree already has a context error, and otherwise add exactly
one node on top, carrying the stack and context of this call. -/
theorem C19_wrap_adds_iff_absent (s : S) (c : C) (e : Err S C) :
    ((∃ n ∈ e.nodes, n.ctx?.isSome = true) → wrapError s c (some e) = some e) ∧
    ((∀ n ∈ e.nodes, n.ctx? = none) → wrapError s c (some e) = some (.ctxErr e s c)) := by
  have h := is_ctx_iff e
  constructor
  · intro hn
    have := h.2 hn
    simp [wrapError, maybeWrap, this]
  · intro hn
    have : e.is .ctxError = false := by
      rw [← Bool.not_eq_true, h]
      rintro ⟨n, hm, hs⟩
      rw [hn n hm] at hs; cases hs
    simp [wrapError, maybeWrap, this]

/-- The nodes of a wrapped error, in terms of those of the error. -/
theorem maybeWrap_nodes (s : S) (c : C) (e : Err S C) :
    (maybeWrap s c e).nodes.filterMap Err.ctx? =
      (if e.nodes.filterMap Err.ctx? = [] then [(s, c)] else e.nodes.filterMap Err.ctx?) ∧
    ∀ n ∈ e.nodes, n ∈ (maybeWrap s c e).nodes := by
  have h := is_ctx_iff e
  by_cases hc : e.is .ctxError = true
  · have h2 : maybeWrap s c e = e := by simp [maybeWrap, hc]
    obtain ⟨n, hn, hs⟩ := h.1 hc
    rw [h2]
    refine ⟨?_, fun _ h => h⟩
    rw [if_neg]
    intro h0
    rw [List.filterMap_eq_nil_iff] at h0
    rw [h0 n hn] at hs; cases hs
  · have h2 : maybeWrap s c e = .ctxErr e s c := by simp [maybeWrap, hc]
    have h3 : e.nodes.filterMap Err.ctx? = [] := by
      rw [List.filterMap_eq_nil_iff]
      intro n hn
      cases hs : n.ctx? with
      | none => rfl
      | some x => exact absurd (h.2 ⟨n, hn, by rw [hs]; rfl⟩) hc
    rw [h2]
    refine ⟨by simp [Err.nodes, Err.ctx?, h3], ?_⟩
    intro n hn; simp [Err.nodes, hn]

/-- C19: along any chain of wraps (`WrapError`, `NewErrorf`, `fmt.Errorf`, `http.NewErrorf`, in any order and number) starting from an
error without context, there is at most one context error, and it is the one of the innermost (first) wrap that records a stack. -/
theorem C19_innermost_stack (e : Err S C) (h : e.nodes.filterMap Err.ctx? = []) (ops : List (WrapOp S C)) :
    (ops.foldl WrapOp.apply e).nodes.filterMap Err.ctx? = (ops.filterMap WrapOp.stack?).head?.toList ∧
    (ops.foldl WrapOp.apply e).asCtx = (ops.filterMap WrapOp.stack?).head? := by
  have step : ∀ (e : Err S C) (op : WrapOp S C), (op.apply e).nodes.filterMap Err.ctx? =
      (if e.nodes.filterMap Err.ctx? = [] then op.stack?.toList else e.nodes.filterMap Err.ctx?) := by
    intro e op
    cases op with
    | wrapError s c =>
      simp only [WrapOp.apply, wrapError, Option.getD_some, WrapOp.stack?, Option.toList]
      exact (maybeWrap_nodes s c e).1
    | newErrorf s c id m =>
      simp only [WrapOp.apply, newErrorf, WrapOp.stack?, Option.toList]
      rw [(maybeWrap_nodes s c _).1]
      simp only [errorf, Err.nodes, List.filterMap_cons_none (f := Err.ctx?) (a := Err.wrap id m e) rfl]
    | errorf id m =>
      simp only [WrapOp.apply, errorf, WrapOp.stack?, Option.toList, Err.nodes]
      rw [List.filterMap_cons_none rfl]
      split
      · assumption
      · rfl
    | http s c code id m =>
      simp only [WrapOp.apply, httpNewErrorf, newErrorf, WrapOp.stack?, Option.toList, Err.nodes]
      rw [List.filterMap_cons_none rfl, (maybeWrap_nodes s c _).1]
      simp only [errorf, Err.nodes, List.filterMap_cons_none (f := Err.ctx?) (a := Err.wrap id m e) rfl]
  have keep : ∀ (ops : List (WrapOp S C)) (e : Err S C), e.nodes.filterMap Err.ctx? ≠ [] →
      (ops.foldl WrapOp.apply e).nodes.filterMap Err.ctx? = e.nodes.filterMap Err.ctx? := by
    intro ops
    induction ops with
    | nil => intro e _; rfl
    | cons op ops ih =>
      intro e he
      have h1 := step e op
      rw [if_neg he] at h1
      simp only [List.foldl_cons]
      rw [ih _ (by rw [h1]; exact he), h1]
  have main : ∀ (ops : List (WrapOp S C)) (e : Err S C), e.nodes.filterMap Err.ctx? = [] →
      (ops.foldl WrapOp.apply e).nodes.filterMap Err.ctx? = (ops.filterMap WrapOp.stack?).head?.toList := by
    intro ops
    induction ops with
    | nil => intro e he; simpa using he
    | cons op ops ih =>
      intro e he
      have h1 := step e op
      rw [if_pos he] at h1
      simp only [List.foldl_cons, List.filterMap_cons]
      cases hs : op.stack? with
      | none => rw [hs] at h1; exact ih _ h1
      | some x =>
        rw [hs] at h1
        rw [keep ops _ (by rw [h1]; simp [Option.toList]), h1]
        rfl
  refine ⟨main ops e h, ?_⟩
  rw [asCtx_eq, main ops e h]
  cases (ops.filterMap WrapOp.stack?).head? <;> rfl

/-- C19: if the error already has context errors, no chain of wraps adds or changes one. -/
theorem C19_existing_kept (e : Err S C) (h : e.nodes.filterMap Err.ctx? ≠ []) (op : WrapOp S C) :
    (op.apply e).nodes.filterMap Err.ctx? = e.nodes.filterMap Err.ctx? := by
  cases op with
  | wrapError s c =>
    simp only [WrapOp.apply, wrapError, Option.getD_some]
    rw [(maybeWrap_nodes s c e).1, if_neg h]
  | newErrorf s c id m =>
    simp only [WrapOp.apply, newErrorf]
    rw [(maybeWrap_nodes s c _).1]
    simp only [errorf, Err.nodes, List.filterMap_cons_none (f := Err.ctx?) (a := Err.wrap id m e) rfl]
    rw [if_neg h]
  | errorf id m =>
    simp only [WrapOp.apply, errorf, Err.nodes, List.filterMap_cons_none (f := Err.ctx?) (a := Err.wrap id m e) rfl]
  | http s c code id m =>
    simp only [WrapOp.apply, httpNewErrorf, newErrorf, Err.nodes]
    rw [List.filterMap_cons_none rfl, (maybeWrap_nodes s c _).1]
    simp only [errorf, Err.nodes, List.filterMap_cons_none (f := Err.ctx?) (a := Err.wrap id m e) rfl]
    rw [if_neg h]

/-- C19: no chain of wraps hides a cause: every node stays in the tree, and `errors.Is` keeps finding it. -/
theorem C19_causes_kept (ops : List (WrapOp S C)) : ∀ e : Err S C,
    (∀ n ∈ e.nodes, n ∈ (ops.foldl WrapOp.apply e).nodes) ∧
    (∀ id, e.is (.value id) = true → (ops.foldl WrapOp.apply e).is (.value id) = true) := by
  have step : ∀ (e : Err S C) (op : WrapOp S C), ∀ n ∈ e.nodes, n ∈ (op.apply e).nodes := by
    intro e op n hn
    cases op with
    | wrapError s c => exact (maybeWrap_nodes s c e).2 n hn
    | newErrorf s c id m => exact (maybeWrap_nodes s c _).2 n (by simp [errorf, Err.nodes, hn])
    | errorf id m => simp [WrapOp.apply, errorf, Err.nodes, hn]
    | http s c code id m =>
      have := (maybeWrap_nodes s c (errorf id m [e])).2 n (by simp [errorf, Err.nodes, hn])
      simp [WrapOp.apply, httpNewErrorf, newErrorf, Err.nodes, this]
  intro e
  have h1 : ∀ n ∈ e.nodes, n ∈ (ops.foldl WrapOp.apply e).nodes := by
    induction ops generalizing e with
    | nil => intro n hn; exact hn
    | cons op ops ih => intro n hn; exact ih (op.apply e) n (step e op n hn)
  refine ⟨h1, ?_⟩
  intro id hid
  obtain ⟨n, hn, hi⟩ := (is_value_iff id e).1 hid
  exact (is_value_iff id _).2 ⟨n, h1 n hn, hi⟩

/-- C19: `WrapError` keeps the message, and `NewErrorf` has the formatted one. -/
theorem C19_message (ct : Int → String) (cm : Int → String → String) (s : S) (c : C) (e : Err S C) (id : Nat) (m : String)
    (ws : List (Err S C)) :
    (wrapError s c (some e)).map (Err.msg ct cm) = some (e.msg ct cm) ∧ (newErrorf s c id m ws).msg ct cm = m := by
  have hk : ∀ e : Err S C, (maybeWrap s c e).msg ct cm = e.msg ct cm := by
    intro e; unfold maybeWrap; by_cases h : e.is .ctxError = true <;> simp [h, Err.msg]
  refine ⟨by simp [wrapError, hk], ?_⟩
  rw [newErrorf, hk]
  unfold errorf
  split <;> simp [Err.msg]

/-! ### C20 -/

/-- C20: `ErrorCode` is the code of the first `http.Error` in pre-order, and the default when the tree has none (or is nil). -/
theorem C20_error_code (err : Option (Err S C)) (dflt : Int) :
    errorCode err dflt = (((err.map Err.nodes).getD []).filterMap Err.code?).head?.getD dflt := by
  unfold errorCode
  cases err with
  | none => rfl
  | some e =>
    have := asHttp_eq e
    simp only [Option.map_some, Option.getD_some]
    rw [← this]
    cases e.asHttp with
    | none => rfl
    | some p => rfl

/-- C20: the outermost HTTP error decides: `http.NewErrorf` sets the code whatever it wraps, and wrapping with `fmt.Errorf`,
`WrapError` or `ctx.NewErrorf` never changes it. -/
theorem C20_outermost_wins (e : Err S C) (op : WrapOp S C) (dflt : Int) :
    errorCode (some (op.apply e)) dflt = match op with | .http _ _ code _ _ => code | _ => errorCode (some e) dflt := by
  have hk : ∀ (s : S) (c : C) (e : Err S C), (maybeWrap s c e).asHttp = e.asHttp := by
    intro s c e; unfold maybeWrap; by_cases h : e.is .ctxError = true <;> simp [h, Err.asHttp]
  cases op with
  | wrapError s c => simp [WrapOp.apply, wrapError, errorCode, hk]
  | newErrorf s c id m => simp [WrapOp.apply, newErrorf, errorf, errorCode, hk, Err.asHttp]
  | errorf id m => simp [WrapOp.apply, errorf, errorCode, Err.asHttp]
  | http s c code id m => simp [WrapOp.apply, httpNewErrorf, errorCode, Err.asHttp]

/-! ### concrete cases -/

/-- A joined error: the 404 nested in the first branch comes before the 500 in the second. -/
def sampleErr : Err Nat Nat :=
  .wrap 10 "outer" (.join 11 "j" [.ctxErr (.wrap 12 "w" (.httpErr 404 (some (.leaf 13 "x")))) 7 8, .httpErr 500 none, gate])

example : errorCode (some sampleErr) 400 = 404 ∧ errorCode (none : Option (Err Nat Nat)) 400 = 400 ∧
    errorCode (some (.leaf 1 "x" : Err Nat Nat)) 418 = 418 := by decide
example : (errorGate (fun g => some (.join 3 "both" [.leaf 4 "other", .wrap 5 "deep" g])) : Option (Err Nat Nat)).isNone = true := by decide
example : (errorGate (fun _ => some (.leaf 4 "other")) : Option (Err Nat Nat)).isNone = false := by decide
example : ([WrapOp.errorf 1 "a", .newErrorf 100 200 2 "b", .http 101 201 404 3 "c", .wrapError 102 202].foldl WrapOp.apply
    (.leaf 9 "root" : Err Nat Nat)).asCtx = some (100, 200) := by decide

end Verif.Errors

import Verif.Ctx.Log
/-!
# Properties of logging (C24, C25, C65)
-/
set_option autoImplicit false
namespace Verif.Ctx

/-! ### C24 -/

/-- Configuration pointers of all contexts are allocated. -/
theorem ptr_known {w : LogWorld} (h : w.Reach) : ∀ c ∈ w.ctxs, ∀ p, configPtr (some c) = some p → p < w.heap.length := by
  have derive : ∀ (c : Ctx) (x : Wrap) (quote : String → String), (∀ p, x ≠ .config p) → configPtr (some (x.apply quote c)) = configPtr (some c) := by
    intro c x quote hx
    cases x <;> simp_all [Wrap.apply, configPtr, value, withTracking]
  have ext : ∀ (heap : CHeap) (c : Ctx), heap.length ≤ (extractConfig heap (some c)).1.length := by
    intro heap c; unfold extractConfig; split <;> simp
  have new : ∀ (heap : CHeap) (c : Ctx), (∀ p, configPtr (some c) = some p → p < heap.length) →
      (extractConfig heap (some c)).2 < (extractConfig heap (some c)).1.length := by
    intro heap c hc; unfold extractConfig; split
    · rename_i p hp; exact hc p hp
    · simp
  induction h with
  | init => intro c hc p hp; simp at hc; subst hc; simp [configPtr, value] at hp
  | wrap quote c x hr hc hx ih =>
    intro d hd p hp
    rcases List.mem_append.1 hd with hd | hd
    · exact ih d hd p hp
    · simp at hd; subst hd; rw [derive c x quote hx] at hp; exact ih c hc p hp
  | @logFunc w c l hr hc ih =>
    intro d hd p hp
    simp only [withLogFunc, List.length_modify]
    rcases List.mem_append.1 hd with hd | hd
    · exact Nat.lt_of_lt_of_le (ih d hd p hp) (ext _ _)
    · simp [withLogFunc] at hd; subst hd; simp [configPtr, value] at hp; subst hp; exact new _ _ (ih c hc)
  | @helper w c f hr hc ih =>
    intro d hd p hp
    simp only [withHelper, List.length_modify]
    rcases List.mem_append.1 hd with hd | hd
    · exact Nat.lt_of_lt_of_le (ih d hd p hp) (ext _ _)
    · simp [withHelper] at hd; subst hd; simp [configPtr, value] at hp; subst hp; exact new _ _ (ih c hc)

/-- C24: the context returned by `WithLogFunc` uses the given function, in every reachable state. -/
theorem C24_child_uses_logger {w : LogWorld} (h : w.Reach) (c : Ctx) (hc : c ∈ w.ctxs) (l : Nat) :
    loggerOf (withLogFunc w.heap c l).1 (some (withLogFunc w.heap c l).2) = some l := by
  have hk := ptr_known h c hc
  have : (extractConfig w.heap (some c)).2 < (extractConfig w.heap (some c)).1.length := by
    unfold extractConfig; split
    · rename_i p hp; exact hk p hp
    · simp
  simp only [loggerOf, withLogFunc, extractConfig.eq_def _ (some (Ctx.config _ _)), configPtr, value, if_true]
  rw [List.getElem?_modify]
  simp only [if_true]
  rw [List.getElem?_eq_getElem this]
  rfl

/-- C24 (violated): when the context already has a configuration, `WithLogFunc` on it changes the logger of *every* context that shares
the configuration: the parent itself and all its siblings. -/
theorem C24_parent_unaffected_violated {w : LogWorld} (h : w.Reach) (c d : Ctx) (hc : c ∈ w.ctxs) (p : Nat) (l : Nat)
    (hp : configPtr (some c) = some p) (hd : configPtr (some d) = some p) :
    loggerOf (withLogFunc w.heap c l).1 (some d) = some l := by
  have hk := ptr_known h c hc p hp
  simp only [loggerOf, withLogFunc, extractConfig, hp, hd]
  rw [List.getElem?_modify, List.getElem?_eq_getElem hk]
  simp

/-- C24 (violated): a reachable state where it does change: the parent logged with 1, and logs with 2 after its child was given 2. -/
theorem C24_witness_violated : ∃ (w : LogWorld) (c : Ctx), w.Reach ∧ c ∈ w.ctxs ∧ loggerOf w.heap (some c) = some 1 ∧
    loggerOf (withLogFunc w.heap (.tag "k" "v" c) 2).1 (some c) = some 2 := by
  refine ⟨_, .config 0 .background, .logFunc .background 1 .init (List.mem_singleton.2 rfl), ?_, ?_, ?_⟩
  · simp [withLogFunc, extractConfig, configPtr, value]
  · decide
  · decide

/-- C24 (partial): when the context has no configuration yet, `WithLogFunc` and `WithHelper` leave the logger and helper of every
existing context unchanged. -/
theorem C24_unconfigured_partial {w : LogWorld} (h : w.Reach) (c : Ctx) (hn : configPtr (some c) = none) (x : Nat) (d : Ctx) (hd : d ∈ w.ctxs) :
    loggerOf (withLogFunc w.heap c x).1 (some d) = loggerOf w.heap (some d) ∧
    helperOf (withLogFunc w.heap c x).1 (some d) = helperOf w.heap (some d) ∧
    loggerOf (withHelper w.heap c x).1 (some d) = loggerOf w.heap (some d) ∧
    helperOf (withHelper w.heap c x).1 (some d) = helperOf w.heap (some d) := by
  have hk := ptr_known h d hd
  simp only [loggerOf, helperOf, withLogFunc, withHelper, extractConfig, hn]
  cases hp : configPtr (some d) with
  | none => simp [List.getElem?_append]
  | some q =>
    have hq := hk q hp
    have hne : w.heap.length ≠ q := by omega
    simp [List.getElem?_modify, List.getElem?_append, hq, hne]

/-- C24: in every reachable state the context returned by `WithHelper` uses the given helper and keeps the log function the context
had; `WithLogFunc` likewise keeps the helper. -/
theorem C24_child_keeps_rest {w : LogWorld} (h : w.Reach) (c : Ctx) (hc : c ∈ w.ctxs) (x : Nat) :
    helperOf (withHelper w.heap c x).1 (some (withHelper w.heap c x).2) = some x ∧
    loggerOf (withHelper w.heap c x).1 (some (withHelper w.heap c x).2) = loggerOf w.heap (some c) ∧
    helperOf (withLogFunc w.heap c x).1 (some (withLogFunc w.heap c x).2) = helperOf w.heap (some c) := by
  have hk := ptr_known h c hc
  have hlt : (extractConfig w.heap (some c)).2 < (extractConfig w.heap (some c)).1.length := by
    unfold extractConfig; split
    · rename_i p hp; exact hk p hp
    · simp
  have e : ∀ (hp : CHeap) (q : Nat), extractConfig hp (some (Ctx.config q c)) = (hp, q) := by
    intro hp q; simp [extractConfig, configPtr, value]
  simp only [loggerOf, helperOf, withLogFunc, withHelper, e]
  rw [List.getElem?_modify, List.getElem?_modify, List.getElem?_eq_getElem hlt]
  simp

/-- C24 (partial): a logger set on a context never changes contexts whose configuration is another cell. -/
theorem C24_other_cell_partial {w : LogWorld} (h : w.Reach) (c : Ctx) (l : Nat) (d : Ctx) (hd : d ∈ w.ctxs)
    (hne : configPtr (some d) ≠ configPtr (some c)) : loggerOf (withLogFunc w.heap c l).1 (some d) = loggerOf w.heap (some d) := by
  cases hn : configPtr (some c) with
  | none => exact (C24_unconfigured_partial h c hn l d hd).1
  | some p =>
    simp only [loggerOf, withLogFunc, extractConfig, hn]
    cases hp : configPtr (some d) with
    | none => simp [List.getElem?_append]
    | some q =>
      rw [hn, hp] at hne
      have : p ≠ q := fun e => hne (by rw [e])
      simp [List.getElem?_modify, this]

/-- C24 (partial): the same for a helper. -/
theorem C24_other_cell_helper_partial {w : LogWorld} (h : w.Reach) (c : Ctx) (f : Nat) (d : Ctx) (hd : d ∈ w.ctxs)
    (hne : configPtr (some d) ≠ configPtr (some c)) : helperOf (withHelper w.heap c f).1 (some d) = helperOf w.heap (some d) := by
  cases hn : configPtr (some c) with
  | none => exact (C24_unconfigured_partial h c hn f d hd).2.2.2
  | some p =>
    simp only [helperOf, withHelper, extractConfig, hn]
    cases hp : configPtr (some d) with
    | none => simp [List.getElem?_append]
    | some q =>
      rw [hn, hp] at hne
      have : p ≠ q := fun e => hne (by rw [e])
      simp [List.getElem?_modify, this]

/-! ### C25 -/

variable {P S : Type}

/-- Two arguments that differ at most in the content of a redacted string. -/
inductive SameButRedacted : List (Arg P S) → List (Arg P S) → Prop where
  | nil : SameButRedacted [] []
  | redacted (s t : String) {as bs : List (Arg P S)} : SameButRedacted as bs → SameButRedacted (.redacted s :: as) (.redacted t :: bs)
  | same (a : Arg P S) {as bs : List (Arg P S)} : SameButRedacted as bs → SameButRedacted (a :: as) (a :: bs)

theorem formatLoop_same (ops : FmtOps P S) {as bs : List (Arg P S)} (h : SameButRedacted as bs) :
    ∀ (tags : Tags) (errs : List (ErrInfo S)), formatLoop ops as tags errs = formatLoop ops bs tags errs := by
  induction h with
  | nil => intros; rfl
  | redacted s t _ ih => intro tags errs; simp only [formatLoop, ih]
  | same a _ ih => intro tags errs; cases a <;> simp only [formatLoop, ih]

/-- C25 (non-interference): the message, the tags and the arguments left in the caller's slice do not depend on the content of
redacted arguments, whatever `fmt.Sprintf`, `json.Marshal` and the other arguments' `LogAs` do. -/
theorem C25_redacted_noninterference (ops : FmtOps P S) (tags : Tags) (f : String) (as bs : List (Arg P S)) (h : SameButRedacted as bs) :
    formatMsg ops tags f as = formatMsg ops tags f bs := by
  simp only [formatMsg, formatLoop_same ops h]

/-- The formatted arguments and the tags after the arguments' rewrites, specified argument by argument from the left. -/
def rewriteSpec (ops : FmtOps P S) (as : List (Arg P S)) (tags : Tags) : List (Arg P S) × Tags :=
  as.foldl (fun (acc : List (Arg P S) × Tags) a =>
    match a with
    | .loggable f => (acc.1 ++ [.plain (f acc.2).1], (f acc.2).2)
    | .redacted _ => (acc.1 ++ [.plain ops.stars], acc.2)
    | .err e => (acc.1 ++ [.err e], acc.2)
    | .plain p => (acc.1 ++ [.plain p], acc.2)) ([], tags)

/-- The error arguments, in order. -/
def errArgs (as : List (Arg P S)) : List (Errors.Err S (Option Ctx)) :=
  as.filterMap (fun a => match a with | .err e => some e | _ => none)

theorem formatLoop_spec (ops : FmtOps P S) : ∀ (as : List (Arg P S)) (pre : List (Arg P S)) (tags : Tags) (errs : List (ErrInfo S)),
    as.foldl (fun (acc : List (Arg P S) × Tags) a =>
      match a with
      | .loggable f => (acc.1 ++ [.plain (f acc.2).1], (f acc.2).2)
      | .redacted _ => (acc.1 ++ [.plain ops.stars], acc.2)
      | .err e => (acc.1 ++ [.err e], acc.2)
      | .plain p => (acc.1 ++ [.plain p], acc.2)) (pre, tags)
      = (pre ++ (formatLoop ops as tags errs).1, (formatLoop ops as tags errs).2.1) ∧
    (formatLoop ops as tags errs).2.2 = errs ++ (errArgs as).map (errInfo ops)
  | [], pre, tags, errs => by simp [formatLoop, errArgs]
  | .loggable f :: as, pre, tags, errs => by
    have ih := formatLoop_spec ops as (pre ++ [.plain (f tags).1]) (f tags).2 errs
    simp only [List.foldl_cons, formatLoop, ih.1, ih.2]
    simp [errArgs]
  | .redacted s :: as, pre, tags, errs => by
    have ih := formatLoop_spec ops as (pre ++ [.plain ops.stars]) tags errs
    simp only [List.foldl_cons, formatLoop, ih.1, ih.2]
    simp [errArgs]
  | .err e :: as, pre, tags, errs => by
    have ih := formatLoop_spec ops as (pre ++ [.err e]) tags (errs ++ [errInfo ops e])
    simp only [List.foldl_cons, formatLoop, ih.1, ih.2]
    simp [errArgs]
  | .plain p :: as, pre, tags, errs => by
    have ih := formatLoop_spec ops as (pre ++ [.plain p]) tags errs
    simp only [List.foldl_cons, formatLoop, ih.1, ih.2]
    simp [errArgs]

/-- C25: `LogAs` is called once per `Loggable` argument, from left to right, each seeing the tags left by the previous ones; the message
is formatted from the values they return; afterwards the tag "error" reports the error arguments, if there are any and they can be
encoded. -/
theorem C25_rewrites_in_order (ops : FmtOps P S) (tags : Tags) (f : String) (as : List (Arg P S)) :
    (formatMsg ops tags f as).1 = ops.sprintf f (rewriteSpec ops as tags).1 ∧
    (formatMsg ops tags f as).2.1 =
      (match errArgs as, ops.marshalErrs ((errArgs as).map (errInfo ops)) with
       | _ :: _, some j => (rewriteSpec ops as tags).2.set "error" j
       | _, _ => (rewriteSpec ops as tags).2) := by
  have h := formatLoop_spec ops as [] tags []
  have h1 : rewriteSpec ops as tags = ((formatLoop ops as tags []).1, (formatLoop ops as tags []).2.1) := by
    rw [rewriteSpec, h.1]; simp
  have h2 := h.2
  simp only [List.nil_append] at h2
  simp only [formatMsg, h1, h2, List.length_map]
  refine ⟨trivial, ?_⟩
  cases he : errArgs as with
  | nil => simp
  | cons a l => simp only [List.length_cons]; rw [if_pos (by omega)]; cases ops.marshalErrs (List.map (errInfo ops) (a :: l)) <;> rfl

/-- C25: no redacted or other `Loggable` value is left among the formatted arguments, at the position it had. -/
theorem C25_no_loggable_left (ops : FmtOps P S) (tags : Tags) (f : String) (as : List (Arg P S)) :
    (formatMsg ops tags f as).2.2.length = as.length ∧
    ∀ a ∈ (formatMsg ops tags f as).2.2, (∃ e, a = .err e) ∨ ∃ p, a = .plain p := by
  have gen : ∀ (as : List (Arg P S)) (tags : Tags) (errs : List (ErrInfo S)), (formatLoop ops as tags errs).1.length = as.length ∧
      ∀ a ∈ (formatLoop ops as tags errs).1, (∃ e, a = .err e) ∨ ∃ p, a = .plain p := by
    intro as
    induction as with
    | nil => intros; simp [formatLoop]
    | cons a as ih =>
      intro tags errs
      cases a <;> simp only [formatLoop, List.length_cons, List.mem_cons, forall_eq_or_imp] <;>
        refine ⟨by rw [(ih _ _).1], by simp, (ih _ _).2⟩
  exact gen as tags []

/-! ### C65 -/

/-- C65 (violated): `FormatMsg` overwrites the caller's slice, so formatting the same slice again does not give the same tags: there is
an argument whose tag rewrite is applied the first time only. -/
theorem C65_repeat_violated : ∃ (ops : FmtOps String Unit) (args : List (Arg String Unit)) (f : String),
    (formatMsg ops (fun _ => none) f args).2.1 "user" = some "\"u1\"" ∧
    (formatMsg ops (fun _ => none) f (formatMsg ops (fun _ => none) f args).2.2).2.1 "user" = none := by
  refine ⟨⟨fun f _ => f, fun _ => none, "***", fun _ => ""⟩, [.loggable (fun t => ("u1", t.set "user" "\"u1\""))], "%v", ?_, ?_⟩ <;> decide

/-- C65 (partial): the message of the second formatting is the same, and its arguments are unchanged. -/
theorem C65_repeat_message_partial (ops : FmtOps P S) (tags tags' : Tags) (f : String) (as : List (Arg P S)) :
    (formatMsg ops tags' f (formatMsg ops tags f as).2.2).1 = (formatMsg ops tags f as).1 ∧
    (formatMsg ops tags' f (formatMsg ops tags f as).2.2).2.2 = (formatMsg ops tags f as).2.2 := by
  have gen : ∀ (as : List (Arg P S)) (tags tags' : Tags) (errs errs' : List (ErrInfo S)),
      (formatLoop ops (formatLoop ops as tags errs).1 tags' errs').1 = (formatLoop ops as tags errs).1 := by
    intro as
    induction as with
    | nil => intros; simp [formatLoop]
    | cons a as ih => intro tags tags' errs errs'; cases a <;> simp [formatLoop, ih]
  simp only [formatMsg, gen, and_self]

/-- C65 (partial): so do the tags, unless a `Loggable` argument changes them: the second time they are the initial ones with the errors added. Missing: `LogAs` of the
arguments is not called again, see `C65_repeat_violated`. -/
theorem C65_repeat_tags_partial (ops : FmtOps P S) (tags tags' : Tags) (f : String) (as : List (Arg P S)) :
    (formatMsg ops tags' f (formatMsg ops tags f as).2.2).2.1 =
      (match errArgs as, ops.marshalErrs ((errArgs as).map (errInfo ops)) with
       | _ :: _, some j => tags'.set "error" j
       | _, _ => tags') ∧
    ((∀ g, .loggable g ∈ as → ∀ t, (g t).2 = t) → (formatMsg ops tags f (formatMsg ops tags f as).2.2).2.1 = (formatMsg ops tags f as).2.1) := by
  have plain : ∀ (as : List (Arg P S)), (∀ g, .loggable g ∈ as → ∀ t, (g t).2 = t) → ∀ (tags : Tags) (errs : List (ErrInfo S)), (formatLoop ops as tags errs).2.1 = tags := by
    intro as
    induction as with
    | nil => intros; simp [formatLoop]
    | cons a as ih =>
      intro h tags errs
      have ih := ih fun g hg => h g (by simp [hg])
      cases a <;> simp only [formatLoop, ih]
      exact h _ (by simp) _
  have again : ∀ (as : List (Arg P S)) (tags tags' : Tags) (errs errs' : List (ErrInfo S)),
      (formatLoop ops (formatLoop ops as tags errs).1 tags' errs').2 = (tags', errs' ++ (errArgs as).map (errInfo ops)) := by
    intro as
    induction as with
    | nil => intros; simp [formatLoop, errArgs]
    | cons a as ih => intro tags tags' errs errs'; cases a <;> simp [formatLoop, ih, errArgs]
  have eq : ∀ tags', (formatMsg ops tags' f (formatMsg ops tags f as).2.2).2.1 =
      (match errArgs as, ops.marshalErrs ((errArgs as).map (errInfo ops)) with
       | _ :: _, some j => tags'.set "error" j
       | _, _ => tags') := by
    intro tags'
    simp only [formatMsg, again, List.nil_append, List.length_map]
    cases he : errArgs as with
    | nil => simp
    | cons a l => simp only [List.length_cons]; rw [if_pos (by omega)]; cases ops.marshalErrs (List.map (errInfo ops) (a :: l)) <;> rfl
  refine ⟨eq tags', fun h => ?_⟩
  rw [eq tags, (C25_rewrites_in_order ops tags f as).2]
  have hp : (rewriteSpec ops as tags).2 = tags := by
    rw [rewriteSpec, (formatLoop_spec ops as [] tags []).1]; exact plain as h tags []
  rw [hp]

/-! ### concrete cases -/

/-- Formatting that shows the arguments. -/
def showOps : FmtOps String Unit :=
  { sprintf := fun f as => as.foldl (fun s a => s ++ "," ++ match a with | .plain p => p | .err _ => "E" | _ => "?") f
    marshalErrs := fun l => some (String.join (l.map (·.msg)))
    stars := "***"
    errMsg := fun e => e.msg (fun _ => "") (fun _ s => s) }

example : (formatMsg showOps (fun _ => none) "f" [.redacted "secret", .err (.leaf 1 "boom"), .loggable (fun t => ("v", t.set "error" "x")), .plain "p"]).1 = "f,***,E,v,p" := by decide
example : (formatMsg showOps (fun _ => none) "f" [.redacted "secret", .err (.leaf 1 "boom"), .loggable (fun t => ("v", t.set "error" "x")), .plain "p"]).2.1 "error" = some "boom" := by decide


/-- C24: a child of the background has its own logger; the child of that shares it. -/
example : let a := withLogFunc [] .background 1; let b := withLogFunc a.1 .background 2; let c := withLogFunc b.1 (.tag "k" "v" b.2) 3
    loggerOf c.1 (some a.2) = some 1 ∧ loggerOf c.1 (some b.2) = some 3 ∧ loggerOf c.1 (some c.2) = some 3 ∧ loggerOf c.1 (some .background) = loggerOf [] (some .background) := by decide

/-- C24: a helper is beside the logger. -/
example : let a := withLogFunc [] .background 1; let b := withHelper a.1 a.2 7; loggerOf b.1 (some b.2) = some 1 ∧ helperOf b.1 (some b.2) = some 7 ∧ helperOf a.1 (some a.2) ≠ some 7 := by decide

/-- C25: what is redacted does not matter. -/
example (s t : String) : formatMsg showOps (fun _ => none) "f" [.redacted s, .plain "p"] = formatMsg showOps (fun _ => none) "f" [.redacted t, .plain "p"] := rfl

/-- C65: the second logger is handed the rewritten arguments. -/
example : (formatMsg showOps (fun _ => none) "f" (formatMsg showOps (fun _ => none) "f" [.redacted "secret", .loggable (fun t => ("v", t.set "user" "x"))]).2.2).1 = "f,***,v" := by decide

end Verif.Ctx

import Verif.Openapi.Walk
/-!
# Schemas: properties

C54, C55 and C86; the lemmas are in `Verif.Openapi.Lemmas` and `Verif.Openapi.Walk`.
-/
set_option autoImplicit false
namespace Verif.Openapi
open Verif.Strconv Verif.Enc

/-! ### C54 -/

theorem closed_empty : Closed [] := fun k s h => by cases h

theorem post_tab {E : Env} {tab tab' : Table} {r : R Schema} {Q : Schema → Table → Prop} (h : Post E tab r Q) (ht : r.tab = some tab') : Closed tab' ∧ Keeps tab tab' := by
  cases r with
  | ok a t => injection ht with ht; subst ht; exact ⟨h.1, h.2.1⟩
  | err t => injection ht with ht; subst ht; exact h
  | errNil t => injection ht with ht; subst ht; exact h
  | panic t => injection ht with ht; subst ht; exact h
  | loop => cases ht

/-- C54: after any calls, failed ones among them, every reference in the returned schemas and in the table resolves, and what was defined before stays as it was. -/
theorem C54_resolves (E : Env) (tab tab' : Table) (l : List Schema) (hc : Closed tab) (h : Calls E tab l tab') :
    Closed tab' ∧ Keeps tab tab' ∧ ∀ s ∈ l, ∀ r ∈ s.refs, Has tab' r := by
  induction h with
  | nil tab => exact ⟨hc, Keeps.refl _, fun s hs => by cases hs⟩
  | @ok tab tab' tab'' n doc t s l hr _ ih =>
    have hp := schema_post E n doc t tab hc
    rw [hr] at hp
    obtain ⟨h1, h2, _, h4, _⟩ := hp
    obtain ⟨i1, i2, i3⟩ := ih h1
    refine ⟨i1, h2.trans i2, fun s' hs' r hr' => ?_⟩
    rcases List.mem_cons.1 hs' with rfl | hs'
    · exact i2.has (h4 r hr')
    · exact i3 s' hs' r hr'
  | @fail tab tab' tab'' n doc t l ht _ _ ih =>
    obtain ⟨h1, h2⟩ := post_tab (schema_post E n doc t tab hc) ht
    obtain ⟨i1, i2, i3⟩ := ih h1
    exact ⟨i1, h2.trans i2, i3⟩

/-- C54: after a successful call what is new in the table describes a struct: the properties are its fields. -/
theorem C54_described (E : Env) (n : Nat) (doc : Str) (t : OTy) (tab tab' : Table) (hc : Closed tab) (s : Schema) (h : schema E n doc t tab = .ok s tab') (k : Str) (s' : Schema)
    (hn : lookupKey k tab = none) (hk : lookupKey k tab' = some s') : ∃ i pkg name fs, E.defs i = .struct pkg name fs ∧ structKey pkg name = k ∧ Describes s' fs := by
  have hp := schema_post E n doc t tab hc
  rw [h] at hp
  obtain ⟨i, pkg, name, fs, h1, h2, h3, _⟩ := hp.2.2.1 k s' hn hk
  exact ⟨i, pkg, name, fs, h1, h2, h3⟩

/-- C54: a named struct has a reference as schema, also behind pointers, and an entry in the table. -/
theorem C54_named (E : Env) (n : Nat) (doc : Str) (i : Nat) (pkg name : Str) (fs : List Field) (hd : E.defs i = .struct pkg name fs) (tab tab' : Table) (hc : Closed tab)
    (s : Schema) (h : schema E n doc (.ref i) tab = .ok s tab') : s = .ref (structKey pkg name) doc ∧ Has tab' (structKey pkg name) := by
  have hp := schema_post E n doc (.ref i) tab hc
  rw [h] at hp
  have hs : s = .ref (structKey pkg name) doc := by
    unfold schema at h
    cases n with
    | zero => cases h
    | succ n =>
      rw [body, hd] at h
      simp only at h
      split at h
      · injection h with h _; exact h.symm
      · cases hr : fieldsWith (fun doc t tab => fin doc (body E n t t tab)) (some (structKey pkg name, E.str (OTy.ref i))) fs []
            (insertKey (structKey pkg name) (Schema.object (E.str (OTy.ref i)) [] []) tab) with
        | ok ps t => rw [hr] at h; injection h with h _; exact h.symm
        | err _ => rw [hr] at h; cases h
        | errNil _ => rw [hr] at h; cases h
        | panic _ => rw [hr] at h; cases h
        | loop => rw [hr] at h; cases h
  refine ⟨hs, hp.2.2.2.1 _ ?_⟩
  rw [hs]; exact List.mem_singleton.2 rfl

/-- C54: the walk ends, in one way, if types contain themselves only through named structs; missing are the other recursive types, see `C54_violated`. -/
theorem C54_terminates_partial (E : Env) (keys : List Str) (hE : E.Finite keys) (doc : Str) (t : OTy) (ht : Guarded E t) (tab : Table) :
    ∃ n r, r ≠ .loop ∧ ∀ m, n ≤ m → schema E m doc t tab = r := by
  obtain ⟨n, hn⟩ := body_end E keys hE _ ht t tab (Nat.le_refl _)
  have hs : schema E n doc t tab ≠ .loop := fun h => hn (fin_loop.1 h)
  exact ⟨n, _, hs, fun m hm => schema_more E hm doc t tab hs⟩

/-- `type T []T` -/
def selfSlice : Env := { defs := fun _ => .lit (.arr (.ref 0)), str := fun _ => [] }

/-- C54: for `type T []T` the walk never ends. -/
theorem C54_violated (n : Nat) (doc : Str) (tab : Table) : schema selfSlice n doc (.ref 0) tab = .loop := by
  have key : ∀ n orig tab, body selfSlice n orig (.ref 0) tab = .loop ∧ body selfSlice n orig (.arr (.ref 0)) tab = .loop := by
    intro n
    induction n with
    | zero => exact fun _ _ => ⟨rfl, rfl⟩
    | succ n ih =>
      intro orig tab
      refine ⟨(ih orig tab).2, ?_⟩
      rw [body, (ih (.ref 0) tab).1]; rfl
  exact fin_loop.2 (key n _ tab).1

/-- `type Node struct { Val int; Next *Node }`, and `struct { Head Node; Tags []string }`. -/
def nodeEnv : Env := {
  defs := fun _ => .struct (lit "a/b") (lit "Node") [({ name := lit "Val", tag := lit "val,omitempty" }, lit "the value", .prim (lit "integer") none), ({ name := lit "Next" }, [], .ptr (.ref 0))]
  str := fun t => match t with | .ref _ => lit "b.Node" | .ptr _ => lit "*b.Node" | .prim _ _ => lit "int" | _ => lit "?" }

theorem nodeEnv_finite : nodeEnv.Finite [lit "a_b_Node"] := by
  intro i pkg name fs h
  injection h with h1 h2 h3
  subst h1 h2 h3
  refine ⟨by decide, fun f hf => ?_⟩
  simp only [List.mem_cons, List.not_mem_nil, or_false] at hf
  rcases hf with rfl | rfl
  · exact .prim _ _
  · exact .ptr (.struct rfl)

/-- C54: a recursive struct is defined once, and refers to itself. -/
example : schema nodeEnv 5 (lit "the list") (.ptr (.ref 0)) [] = .ok (.ref (lit "a_b_Node") (lit "the list"))
    [(lit "a_b_Node", .object (lit "*b.Node") [] [(lit "Next", .ref (lit "a_b_Node") []), (lit "val", .leaf (lit "integer") (lit "int") (lit "the value"))])] := by
  rfl

/-! ### C55 -/

/-- C55: on a new service a call for a type that contains none without schema succeeds; for a type that is itself without schema it fails with an error; what is missing is
an error for the others: the call panics. -/
theorem C55_outcome_partial (E : Env) (hE : E.DistinctKeys) (n : Nat) (doc : Str) (t : OTy) (hn : schema E n doc t [] ≠ .loop) :
    (¬ HasBad E t → ∃ s tab, schema E n doc t [] = .ok s tab) ∧ (IsBad E t → schema E n doc t [] = .err []) ∧
    (HasBad E t → ¬ IsBad E t → ∃ tab, schema E n doc t [] = .panic tab) := by
  have hl : body E n t t [] ≠ .loop := fun h => hn (fin_loop.2 h)
  refine ⟨fun hb => ?_, fun hb => ?_, fun hb hnb => ?_⟩
  · rcases (body_well E n t t [] hb).fin doc with h | h
    · exact absurd h hn
    · exact h
  · rcases body_isBad E hb n t [] with h | h
    · exact absurd h hl
    · unfold schema; rw [h]; rfl
  · have hp := schema_post E n doc t [] closed_empty
    cases hr : schema E n doc t [] with
    | ok s tab =>
      rw [hr] at hp
      refine absurd hp.2.2.2.2 (fine_not_bad hE (fun k ⟨s', hs'⟩ => ?_) hb)
      obtain ⟨i, pkg, name, fs, h1, h2, _, h4⟩ := hp.2.2.1 k s' rfl hs'
      exact ⟨i, pkg, name, fs, h1, h2, h4⟩
    | err tab =>
      unfold schema at hr
      cases hb' : body E n t t [] with
      | err tab' => exact absurd (body_err E n t t [] tab' hb') hnb
      | ok _ _ => rw [hb'] at hr; cases hr
      | errNil _ => rw [hb'] at hr; cases hr
      | panic _ => rw [hb'] at hr; cases hr
      | loop => rw [hb'] at hr; cases hr
    | errNil tab =>
      unfold schema at hr
      cases hb' : body E n t t [] <;> rw [hb'] at hr <;> cases hr
    | panic tab => exact ⟨tab, rfl⟩
    | loop => exact absurd hr hn

/-- C55: also later, a type that contains none without schema never fails. -/
theorem C55_supported (E : Env) (n : Nat) (doc : Str) (t : OTy) (tab : Table) (hn : schema E n doc t tab ≠ .loop) (hb : ¬ HasBad E t) :
    ∃ s tab', schema E n doc t tab = .ok s tab' := by
  rcases (body_well E n t t tab hb).fin doc with h | h
  · exact absurd h hn
  · exact h

/-- `type Job struct { ID string; Done chan int; Owner string }` -/
def jobEnv : Env := {
  defs := fun _ => .struct (lit "a") (lit "Job") [({ name := lit "ID" }, [], .prim (lit "string") none), ({ name := lit "Done" }, [], .bad), ({ name := lit "Owner" }, [], .prim (lit "string") none)]
  str := fun _ => lit "string" }

/-- C55: a struct with a channel: the call panics, and leaves a definition without the later fields, which the next call refers to as if nothing was wrong. -/
theorem C55_violated (n : Nat) (doc : Str) : HasBad jobEnv (.ref 0) ∧
    ∃ tab, schema jobEnv (n + 2) doc (.ref 0) [] = .panic tab ∧ schema jobEnv (n + 2) doc (.ref 0) tab = .ok (.ref (lit "a_Job") doc) tab ∧
      ∃ s, lookupKey (lit "a_Job") tab = some s ∧ ∀ pkg name fs, jobEnv.defs 0 = .struct pkg name fs → ¬ Describes s fs := by
  refine ⟨.struct rfl (List.mem_cons_of_mem _ (List.mem_cons_self ..)) .bad, _, rfl, rfl, _, rfl, ?_⟩
  intro pkg name fs h hd
  injection h with h1 h2 h3
  subst h3
  obtain ⟨fmt, ps, he, hp⟩ := hd
  injection he with _ _ he
  subst he
  have := (hp (lit "Owner")).2 ⟨_, List.mem_cons_of_mem _ (List.mem_cons_of_mem _ (List.mem_cons_self ..)), by decide⟩
  revert this; decide

/-- C55: a channel itself is an error, a slice of channels a panic. -/
example : schema jobEnv 3 [] (.ptr .bad) [] = .err [] ∧ schema jobEnv 3 [] (.arr .bad) [] = .panic [] := ⟨rfl, rfl⟩

/-! ### C86 -/

/-- C86: types of different packages or names have different keys, as long as neither contains an underscore, and the name (as every Go name) no slash. -/
theorem C86_keys_partial (pkg name pkg' name' : Str) (hp : '_' ∉ pkg) (hp' : '_' ∉ pkg') (hn : '_' ∉ name ∧ '/' ∉ name) (hn' : '_' ∉ name' ∧ '/' ∉ name')
    (h : structKey pkg name = structKey pkg' name') : pkg = pkg' ∧ name = name' := by
  -- without underscores the replacement can be undone
  have inj : ∀ (a b : Str), '_' ∉ a → '_' ∉ b → a.map (fun c => if c = '/' then '_' else c) = b.map (fun c => if c = '/' then '_' else c) → a = b := by
    intro a
    induction a with
    | nil => intro b _ _ h; cases b with
      | nil => rfl
      | cons _ _ => cases h
    | cons c a ih =>
      intro b ha hb h
      cases b with
      | nil => cases h
      | cons d b =>
        simp only [List.map_cons, List.cons.injEq] at h
        simp only [List.mem_cons, not_or] at ha hb
        have hcd : c = d := by
          have h1 := h.1
          by_cases hc : c = '/'
          · by_cases hd : d = '/'
            · rw [hc, hd]
            · rw [if_pos hc, if_neg hd] at h1; exact absurd h1 hb.1
          · by_cases hd : d = '/'
            · rw [if_neg hc, if_pos hd] at h1; exact absurd h1.symm ha.1
            · rw [if_neg hc, if_neg hd] at h1; exact h1
        rw [hcd, ih b ha.2 hb.2 h.2]
  have key := inj _ _ (by simp [hp, hn.1]) (by simp [hp', hn'.1]) h
  -- the last slash separates the package from the name
  have split : ∀ (p p' : Str), p ++ '/' :: name = p' ++ '/' :: name' → p = p' ∧ name = name' := by
    intro p
    induction p with
    | nil =>
      intro p' h
      cases p' with
      | nil => simpa using h
      | cons c p' =>
        simp only [List.nil_append, List.cons_append, List.cons.injEq] at h
        exact absurd (by rw [h.2]; simp) hn.2
    | cons c p ih =>
      intro p' h
      cases p' with
      | nil =>
        simp only [List.nil_append, List.cons_append, List.cons.injEq] at h
        exact absurd (by rw [← h.2]; simp) hn'.2
      | cons d p' =>
        simp only [List.cons_append, List.cons.injEq] at h
        obtain ⟨h1, h2⟩ := ih p' h.2
        exact ⟨by rw [h.1, h1], h2⟩
  exact split pkg pkg' key

/-- `a/b.C struct { X int }` and `a.b_C struct { Y string }` -/
def twoEnv : Env := {
  defs := fun i => if i = 0 then .struct (lit "a/b") (lit "C") [({ name := lit "X" }, [], .prim (lit "integer") none)] else .struct (lit "a") (lit "b_C") [({ name := lit "Y" }, [], .prim (lit "string") none)]
  str := fun _ => [] }

/-- C86: with an underscore two types share a definition: the second is described by the first. -/
theorem C86_violated (n : Nat) : ∃ tab s, schema twoEnv (n + 2) [] (.ref 0) [] = .ok (.ref (lit "a_b_C") []) tab ∧ schema twoEnv (n + 2) [] (.ref 1) tab = .ok (.ref (lit "a_b_C") []) tab ∧
    lookupKey (lit "a_b_C") tab = some s ∧ ∀ pkg name fs, twoEnv.defs 1 = .struct pkg name fs → ¬ Describes s fs := by
  refine ⟨_, _, rfl, rfl, rfl, ?_⟩
  intro pkg name fs h hd
  injection h with h1 h2 h3
  subst h3
  obtain ⟨fmt, ps, he, hp⟩ := hd
  injection he with _ _ he
  subst he
  have := (hp (lit "Y")).2 ⟨_, List.mem_cons_self .., by decide⟩
  revert this; decide

end Verif.Openapi

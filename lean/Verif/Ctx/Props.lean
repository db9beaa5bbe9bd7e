import Verif.Ctx.Spec
/-!
# Properties of contexts (C21, C22, C23)
-/
set_option autoImplicit false
namespace Verif.Ctx

/-! ### C21 -/

theorem visit_append {St E : Type} (fn : String → String → St → St × Option E) (l l' : List (String × String)) (s : St) :
    visit fn (l ++ l') s = match visit fn l s with | (s', some e) => (s', some e) | (s', none) => visit fn l' s' := by
  induction l generalizing s with
  | nil => rfl
  | cons a l ih =>
    obtain ⟨k, j⟩ := a
    simp only [List.cons_append, visit]
    rcases fn k j s with ⟨s', _ | e⟩
    · exact ih s'
    · rfl

/-- C21: for a context derived by any sequence of calls, `RangeTag` visits exactly the tags attached by them, in that order (parents
first, duplicates included), and stops at the first callback error and returns it. -/
theorem C21_range {St E : Type} (quote : String → String) (fn : String → String → St → St × Option E) (ws : List Wrap) (s : St) :
    rangeTag (some (build quote .background ws)) fn s = visit fn (ws.filterMap (Wrap.tag? quote)) s := by
  simp only [rangeTag]
  have key : ∀ (c : Ctx) (w : Wrap) (s : St), valueRange fn (w.apply quote c) s =
      match valueRange fn c s with
      | (s', some e) => (s', some e)
      | (s', none) => visit fn (w.tag? quote).toList s' := by
    intro c w s
    cases w <;> simp only [Wrap.apply, withTracking, valueRange, Wrap.tag?, Option.toList, visit] <;>
      rcases valueRange fn c s with ⟨s', _ | e⟩ <;> try rfl
    · rename_i k j
      simp only
      rcases fn k j s' with ⟨s'', _ | e⟩ <;> rfl
    · rename_i u sg
      simp only
      rcases fn "tracking-id" (quote (if sg = "" then u else sg)) s' with ⟨s'', _ | e⟩ <;> rfl
  have main : ∀ (ws : List Wrap) (s : St), valueRange fn (build quote .background ws.reverse) s =
      visit fn (ws.reverse.filterMap (Wrap.tag? quote)) s := by
    intro ws
    induction ws with
    | nil => intro s; rfl
    | cons w ws ih =>
      intro s
      simp only [build, List.reverse_cons, List.foldl_append, List.foldl_cons, List.foldl_nil, List.filterMap_append]
      rw [key, visit_append]
      have := ih s
      simp only [build] at this
      rw [this]
      rcases visit fn (ws.reverse.filterMap (Wrap.tag? quote)) s with ⟨s', _ | e⟩
      · cases hw : w.tag? quote <;> simp [hw, Option.toList]
      · rfl
  have := main ws.reverse s
  simpa using this

/-- C21: `RangeTag` of a nil context visits nothing. -/
theorem C21_range_nil {St E : Type} (fn : String → String → St → St × Option E) (s : St) : rangeTag none fn s = (s, none) := rfl

/-- C21: the tags in the log are the ones closest to the leaf: the last attached value of each key. -/
theorem C21_extract (quote : String → String) (ws : List Wrap) (k : String) :
    extractTags (some (build quote .background ws)) k = ((ws.filterMap (Wrap.tag? quote)).reverse.find? (fun p => p.1 = k)).map (·.2) := by
  rw [extractTags, C21_range]
  generalize ws.filterMap (Wrap.tag? quote) = l
  have gen : ∀ (l : List (String × String)) (m : Tags),
      (visit (E := Empty) (fun k j (out : Tags) => (out.set k j, none)) l m).1 k =
        ((l.reverse.find? (fun p => p.1 = k)).map (·.2)).or (m k) := by
    intro l
    induction l with
    | nil => intro m; rfl
    | cons a l ih =>
      intro m
      obtain ⟨k', j⟩ := a
      simp only [visit, List.reverse_cons, List.find?_append]
      rw [ih]
      cases hf : l.reverse.find? (fun p => p.1 = k) with
      | some x => simp
      | none =>
        simp only [Option.map_none, Option.none_or, Tags.set, List.find?_cons, List.find?_nil]
        by_cases hk : k = k'
        · subst hk; simp
        · simp [hk, Ne.symm hk]
  rw [gen l]; simp

/-! ### C22 -/

/-- C22: a detached context has the values of its parent, for every key (including the tags). -/
theorem C22_values_kept (c : Ctx) (k : Key) : value k (.detached c) = value k c ∧
    (∀ {St E : Type} (fn : String → String → St → St × Option E) (s : St), rangeTag (some (.detached c)) fn s = rangeTag (some c) fn s) :=
  ⟨rfl, fun _ _ => rfl⟩

/-- C22: a detached context has no `Done` channel, no error and no deadline, in every world. -/
theorem C22_not_cancelled (w : World) (c : Ctx) : done (.detached c) = none ∧ err w (.detached c) = none ∧ deadline (.detached c) = none :=
  ⟨rfl, rfl, rfl⟩

theorem done_eq_head (c : Ctx) : done c = (cancelIds c).head? := by
  induction c <;> simp_all [done, cancelIds]

theorem known_done (w : World) (c : Ctx) (h : Known w c) (id : Nat) (hd : done c = some id) :
    ∃ n, w.nodes[id]? = some n ∧ cancelIds n = cancelIds c := by
  induction c with
  | background => simp [done] at hd
  | cancel i dl p ih =>
    simp only [done, Option.some.injEq] at hd; subst hd
    exact ⟨_, h.1, rfl⟩
  | detached p ih => simp [done] at hd
  | value k v p ih => exact ih h hd
  | config k p ih => exact ih h hd
  | tag k v p ih => exact ih h hd
  | tracking k v p ih => exact ih h hd

/-- The invariant of cancellation histories. -/
structure WInv (w : World) (h : List Nat) : Prop where
  hist : ∀ i ∈ h, i < w.nodes.length
  fresh : ∀ j, w.nodes.length ≤ j → w.st j = none
  iff : ∀ j n, w.nodes[j]? = some n → ((w.st j).isSome = true ↔ ∃ i ∈ cancelIds n, i ∈ h)
  self : ∀ j n, w.nodes[j]? = some n → j ∈ cancelIds n

theorem winv {w : World} {h : List Nat} (hr : w.Reach h) : WInv w h := by
  induction hr with
  | init => exact ⟨by simp, fun _ _ => rfl, by simp, by simp⟩
  | @create w h dl parent hr hk ih =>
    obtain ⟨h1, h2, h3, h4⟩ := ih
    refine ⟨?_, ?_, ?_, ?_⟩
    · intro i hi; have := h1 i hi; simp [World.create]; omega
    · intro j hj
      simp only [World.create, List.length_append, List.length_cons, List.length_nil] at hj
      simp only [World.create]
      rw [if_neg (by omega)]
      exact h2 j (by omega)
    · intro j n hn
      simp only [World.create] at hn ⊢
      by_cases hj : j = w.nodes.length
      · subst hj
        simp at hn; subst hn
        simp only [if_true, err, cancelIds, List.mem_cons, exists_eq_or_imp]
        have hne : w.nodes.length ∉ h := fun hm => absurd (h1 _ hm) (by omega)
        cases hd : done parent with
        | none =>
          have : cancelIds parent = [] := by
            rw [done_eq_head] at hd; simpa using hd
          simp [hne, this]
        | some id =>
          obtain ⟨m, hm, hc⟩ := known_done w parent hk id hd
          have := h3 id m hm
          rw [hc] at this
          simp only
          rw [this]
          simp [hne]
      · rw [List.getElem?_append] at hn
        have hlt : j < w.nodes.length := by
          by_cases hlt : j < w.nodes.length
          · exact hlt
          · rw [if_neg hlt] at hn
            have : 0 < j - w.nodes.length := by omega
            rw [List.getElem?_eq_none (by simp; omega)] at hn
            cases hn
        rw [if_pos hlt] at hn
        rw [if_neg hj]
        exact h3 j n hn
    · intro j n hn
      simp only [World.create] at hn
      rw [List.getElem?_append] at hn
      split at hn
      · exact h4 j n hn
      · rename_i hlt
        by_cases hj : j = w.nodes.length
        · subst hj; simp at hn; subst hn; simp [cancelIds]
        · rw [List.getElem?_eq_none (by simp; omega)] at hn; cases hn
  | @cancel w h id x hr hid ih =>
    obtain ⟨h1, h2, h3, h4⟩ := ih
    refine ⟨?_, ?_, ?_, h4⟩
    · intro i hi
      rcases List.mem_cons.1 hi with rfl | hi
      · exact hid
      · exact h1 i hi
    · intro j hj
      have hj' : w.nodes.length ≤ j := hj
      simp only [World.cancel, h2 j hj', List.getElem?_eq_none hj']
    · intro j n hn
      have hn' : w.nodes[j]? = some n := hn
      have := h3 j n hn'
      simp only [World.cancel, hn', List.mem_cons]
      cases hs : w.st j with
      | some y =>
        rw [hs] at this
        have := this.1 rfl
        obtain ⟨i, hi, hh⟩ := this
        simp only [Option.isSome_some, true_iff]
        exact ⟨i, hi, .inr hh⟩
      | none =>
        rw [hs] at this
        simp only
        by_cases hm : id ∈ cancelIds n
        · simp only [hm, if_true, Option.isSome_some, true_iff]; exact ⟨id, hm, .inl rfl⟩
        · simp only [hm, if_false, Option.isSome_none, Bool.false_eq_true, false_iff]
          rintro ⟨i, hi, rfl | hh⟩
          · exact hm hi
          · have := this.2 ⟨i, hi, hh⟩; cases this

/-- C22 (general form): in every history, a context is cancelled iff some cancel context it derives from, not separated from it by a
`Detach`, was cancelled. -/
theorem C22_cancelled_iff {w : World} {h : List Nat} (hr : w.Reach h) (c : Ctx) (hk : Known w c) :
    (err w c).isSome = true ↔ ∃ i ∈ cancelIds c, i ∈ h := by
  unfold err
  cases hd : done c with
  | none =>
    have : cancelIds c = [] := by rw [done_eq_head] at hd; simpa using hd
    simp [this]
  | some id =>
    obtain ⟨n, hn, hc⟩ := known_done w c hk id hd
    have := (winv hr).iff id n hn
    rw [hc] at this
    exact this

theorem cancelIds_build (quote : String → String) (ws : List Wrap) (c : Ctx) :
    ∀ i ∈ cancelIds (build quote c ws), i ∈ cancelIds c ∨ i ∈ ws.filterMap Wrap.cancel? := by
  induction ws generalizing c with
  | nil => intro i hi; exact .inl hi
  | cons w ws ih =>
    intro i hi
    have := ih (w.apply quote c) i hi
    rcases this with h | h
    · cases w <;> simp_all [Wrap.apply, withTracking, cancelIds, Wrap.cancel?] <;> grind
    · right
      simp only [List.filterMap_cons]
      split
      · exact h
      · exact List.mem_cons_of_mem _ h

/-- C22: contexts derived from a detached context (by any calls, further `Detach`es included) are cancelled only through cancel
contexts created after the `Detach`: never because the parent, or anything above it, was cancelled or timed out. -/
theorem C22_derived_own_only {w : World} {h : List Nat} (hr : w.Reach h) (quote : String → String) (parent : Ctx) (ws : List Wrap)
    (hk : Known w (build quote (.detached parent) ws)) (hc : (err w (build quote (.detached parent) ws)).isSome = true) :
    ∃ i ∈ ws.filterMap Wrap.cancel?, i ∈ h := by
  obtain ⟨i, hi, hh⟩ := (C22_cancelled_iff hr _ hk).1 hc
  rcases cancelIds_build quote ws _ i hi with h1 | h1
  · simp [cancelIds] at h1
  · exact ⟨i, h1, hh⟩

/-- C22 (refuted part): `Cause` of a detached context is still the parent's cause, in every world. -/
theorem C22_cause_leaks (w : World) (c : Ctx) (id : Nat) (h : value .cancelCtx c = some (.cancelCtx id)) :
    cause w (.detached c) = (w.st id).map (·.cause) := by
  simp [cause, value, h]

/-- C22 (refuted part): a reachable history in which a detached context has no error but reports a cause. -/
theorem C22_cause_violated : ∃ (w : World) (h : List Nat) (c : Ctx), w.Reach h ∧ Known w c ∧
    err w (.detached c) = none ∧ cause w (.detached c) = some 42 := by
  let w0 : World := { nodes := [], st := fun _ => none }
  refine ⟨(w0.create none .background).cancel 0 ⟨true, 42⟩, [0], .cancel 0 none .background, ?_, ?_, rfl, ?_⟩
  · exact .cancel 0 _ (.create none .background .init trivial) (by simp [World.create])
  · exact ⟨rfl, trivial⟩
  · decide

/-! ### C23 -/

theorem hex_one : hex 1 = "1" := by decide

theorem append_dot_one (s : String) : s ++ "." ++ "1" = s ++ ".1" := by
  rw [String.append_assoc]; congr 1

/-- In every context made by the package's calls, the next span id is the current id followed by ".1". -/
theorem next_of_get (quote : String → String) (ws : List Wrap) :
    value .trackingNext (build quote .background ws) = (value .trackingGet (build quote .background ws)).map
      (fun v => match v with | .str s => .str (s ++ ".1") | v => v) := by
  have gen : ∀ (ws : List Wrap) (c : Ctx), value .trackingNext c = (value .trackingGet c).map (fun v => match v with | .str s => .str (s ++ ".1") | v => v) →
      value .trackingNext (build quote c ws) = (value .trackingGet (build quote c ws)).map (fun v => match v with | .str s => .str (s ++ ".1") | v => v) := by
    intro ws
    induction ws with
    | nil => intro c h; exact h
    | cons w ws ih =>
      intro c h
      refine ih (w.apply quote c) ?_
      cases w <;> simp_all [Wrap.apply, value, withTracking, hex_one, append_dot_one]
  exact gen ws .background rfl

/-- C23 (violated): in every context made by the package's calls that has a tracking id, any two spans get the same tracking id. -/
theorem C23_siblings_distinct_violated (quote : String → String) (ws : List Wrap) (u1 u2 : String) (i1 i2 : Nat)
    (h : (value .trackingGet (build quote .background ws)).isSome = true) :
    getTracking (span quote u1 i1 (build quote .background ws)) = getTracking (build quote .background ws) ++ ".1" ∧
    getTracking (span quote u2 i2 (build quote .background ws)) = getTracking (build quote .background ws) ++ ".1" := by
  have hn := next_of_get quote ws
  have hstr : ∀ c : Ctx, ∀ v, value .trackingGet c = some v → ∃ s, v = .str s := by
    intro c
    induction c <;> simp_all [value]
  cases hg : value .trackingGet (build quote .background ws) with
  | none => rw [hg] at h; cases h
  | some v =>
    obtain ⟨s, rfl⟩ := hstr _ _ hg
    rw [hg] at hn
    have hne : s ++ ".1" ≠ "" := by
      intro h0
      have := congrArg String.length h0
      simp at this
    simp [getTracking, span, value, hn, hg, withTracking, hne]

/-- Spanning `n` times, each span inside the previous one. -/
def nest (quote : String → String) (uuid : Nat → String) : Nat → Ctx → Ctx
  | 0, c => c
  | n + 1, c => span quote (uuid n) n (nest quote uuid n c)

/-- `".1"` repeated. -/
def dotOnes : Nat → String
  | 0 => ""
  | n + 1 => dotOnes n ++ ".1"

theorem nest_form (quote : String → String) (uuid : Nat → String) (base : Ctx) (id : String) (hid : id ≠ "") (n : Nat) :
    ∃ p, nest quote uuid n (.tracking id 0 base) = .tracking (id ++ dotOnes n) 0 p := by
  induction n with
  | zero => exact ⟨base, by simp [nest, dotOnes]⟩
  | succ n ih =>
    obtain ⟨p, hp⟩ := ih
    simp only [nest, hp]
    have hne : id ++ (dotOnes n ++ ".1") ≠ "" := by
      intro h0
      have := congrArg String.length h0
      simp at this
    have e2 : id ++ dotOnes n ++ "." ++ "1" = id ++ (dotOnes n ++ ".1") := by
      rw [String.append_assoc, String.append_assoc]
      congr 1
    refine ⟨.tag "tracking-id" (quote (id ++ (dotOnes n ++ ".1"))) (.cancel n none (.tracking (id ++ dotOnes n) 0 p)), ?_⟩
    simp only [span, value, reduceCtorEq, if_false, Nat.zero_add, hex_one, e2, withTracking, hne]
    rfl

theorem dotOnes_length (n : Nat) : (dotOnes n).length = 2 * n := by
  induction n with
  | zero => rfl
  | succ n ih => rw [dotOnes, String.length_append, ih]; rfl

/-- C23 (partial): nested spans extend the id of their parent, so all of them are distinct, for any depth. -/
theorem C23_nested_distinct_partial (quote : String → String) (uuid : Nat → String) (c : Ctx) (suggest u0 : String) (n m : Nat)
    (hs : suggest ≠ "") :
    getTracking (nest quote uuid n (withTracking quote u0 c suggest)) = suggest ++ dotOnes n ∧
    (getTracking (nest quote uuid n (withTracking quote u0 c suggest)) =
      getTracking (nest quote uuid m (withTracking quote u0 c suggest)) ↔ n = m) := by
  have hform : ∀ n, getTracking (nest quote uuid n (withTracking quote u0 c suggest)) = suggest ++ dotOnes n := by
    intro n
    have : withTracking quote u0 c suggest = .tracking suggest 0 (.tag "tracking-id" (quote suggest) c) := by simp [withTracking, hs]
    rw [this]
    obtain ⟨p, hp⟩ := nest_form quote uuid (.tag "tracking-id" (quote suggest) c) suggest hs n
    rw [hp]; simp [getTracking, value]
  refine ⟨hform n, ?_⟩
  rw [hform, hform]
  constructor
  · intro h
    have := congrArg String.length h
    simp only [String.length_append, dotOnes_length] at this
    omega
  · rintro rfl; rfl

/-- C23: a span of a context without tracking takes the fresh uuid. -/
theorem C23_untracked_uuid (quote : String → String) (c : Ctx) (h : value .trackingNext c = none) (u : String) (i : Nat) :
    getTracking (span quote u i c) = u := by
  simp [getTracking, span, value, h, withTracking]

/-! ### concrete cases -/

/-- Two tags with the same key, a detach, a tracking id. -/
def sampleWraps : List Wrap := [.tag "a" "1", .cancel 0 none, .tag "b" "2", .detach, .tracking "u" "", .value (.str "a") 9, .tag "a" "3"]

example : rangeTag (some (build (fun s => s) .background sampleWraps)) (fun k j (l : List (String × String)) => (l ++ [(k, j)], if j = "u" then some () else none)) [] =
    ([("a", "1"), ("b", "2"), ("tracking-id", "u")], some ()) := by decide
example : extractTags (some (build (fun s => s) .background sampleWraps)) "a" = some "3" := by decide
example : value (.user (.str "a")) (build (fun s => s) .background sampleWraps) = some (.json "3") := by decide
example : getTracking (span (fun s => s) "v" 1 (span (fun s => s) "u" 0 (withTracking (fun s => s) "x" .background "id"))) = "id.1.1" := by decide
example : getTracking (span (fun s => s) "v" 1 (build (fun s => s) .background sampleWraps)) = "u.1" ∧
    getTracking (span (fun s => s) "w" 2 (build (fun s => s) .background sampleWraps)) = "u.1" := by decide
example : deadline (withDeadline 1 (withDeadline 0 .background 5) 9) = some 5 ∧ deadline (.detached (withDeadline 0 .background 5)) = none := by decide

end Verif.Ctx

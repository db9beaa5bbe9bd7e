import Verif.Ctx.Slog
import Verif.Ctx.LogProps
/-!
# What the default logger writes (C124)
-/
set_option autoImplicit false
namespace Verif.Ctx.Slog
open Verif.Ctx

/-- A list of the tags, in some order. -/
def Lists (tags : Tags) (l : List (String × String)) : Prop := (l.map (·.1)).Nodup ∧ ∀ k v, (k, v) ∈ l ↔ tags k = some v

theorem replaceAll_id (levelText : Int → String) (l : List (String × String)) (h : ∀ p ∈ l, p.1 ≠ "level" ∧ p.1 ≠ "msg") :
    replaceAll levelText (tagAttrs l) = .ok (tagAttrs l) := by
  induction l with
  | nil => rfl
  | cons p l ih =>
    obtain ⟨h1, h2⟩ := h p (by simp)
    have := ih fun q hq => h q (by simp [hq])
    simp only [tagAttrs, List.map_cons] at this ⊢
    simp only [replaceAll, replaceAttr, h1, h2, if_false, this]

theorem replaceAll_panics (levelText : Int → String) (l : List (String × String)) (h : ∃ p ∈ l, p.1 = "level") :
    ∃ e, replaceAll levelText (tagAttrs l) = .error e := by
  induction l with
  | nil => obtain ⟨p, hp, _⟩ := h; cases hp
  | cons p l ih =>
    simp only [tagAttrs, List.map_cons] at ih ⊢
    by_cases hp : p.1 = "level"
    · exact ⟨.typeAssert, by simp only [replaceAll, replaceAttr, hp, if_true]⟩
    · obtain ⟨q, hq, hl⟩ := h
      rcases List.mem_cons.1 hq with rfl | hq
      · exact absurd hl hp
      · obtain ⟨e, he⟩ := ih ⟨q, hq, hl⟩
        refine ⟨e, ?_⟩
        by_cases hm : p.1 = "msg"
        · simp [replaceAll, replaceAttr, hm, he]
        · simp [replaceAll, replaceAttr, hp, hm, he]

theorem top_ok (levelText : Int → String) (level : Int) (msg src : String) :
    replaceAll levelText (topAttrs level msg src) = .ok ([⟨"level", .text (levelText level)⟩, ⟨"message", .text msg⟩] ++ if src ≠ "" then [⟨"src", .text src⟩] else []) := by
  unfold topAttrs
  split <;> simp [replaceAll, replaceAttr]

theorem lists_set (t : Tags) (l : List (String × String)) (h : Lists t l) (k v : String) : Lists (t.set k v) ((k, v) :: l.filter (·.1 ≠ k)) := by
  refine ⟨?_, ?_⟩
  · simp only [List.map_cons, List.nodup_cons]
    refine ⟨by simp, ?_⟩
    exact List.Sublist.nodup (List.Sublist.map _ List.filter_sublist) h.1
  · intro k' v'
    simp only [List.mem_cons, List.mem_filter, Prod.mk.injEq, h.2 k' v', Tags.set]
    by_cases hk : k' = k
    · simp [hk, eq_comm]
    · simp [hk]

/-- The tags of every context can be listed. -/
theorem lists_extract (c : Option Ctx) : ∃ l, Lists (extractTags c) l := by
  suffices ∀ (c : Ctx) (t : Tags), (∃ l, Lists t l) → ∃ l, Lists (rangeTag (E := Empty) (some c) (fun k j (out : Tags) => (out.set k j, none)) t).1 l by
    have h0 : ∃ l, Lists (fun _ => none) l := ⟨[], by simp [Lists]⟩
    cases c with
    | none => exact h0
    | some c => exact this c _ h0
  intro c
  suffices ∀ (c : Ctx) (t : Tags), (∃ l, Lists t l) →
      (valueRange (E := Empty) (fun k j (out : Tags) => (out.set k j, none)) c t).2 = none ∧
      ∃ l, Lists (valueRange (E := Empty) (fun k j (out : Tags) => (out.set k j, none)) c t).1 l from fun t h => (this c t h).2
  intro c
  induction c with
  | background => intro t h; exact ⟨rfl, h⟩
  | value _ _ p ih => exact ih
  | config _ p ih => exact ih
  | cancel _ _ p ih => exact ih
  | tracking _ _ p ih => exact ih
  | detached p ih => exact ih
  | tag k j p ih =>
    intro t h
    obtain ⟨h1, l, hl⟩ := ih t h
    simp only [valueRange]
    obtain ⟨r, hr⟩ : ∃ r, valueRange (E := Empty) (fun k j (out : Tags) => (out.set k j, none)) p t = r := ⟨_, rfl⟩
    rw [hr] at h1 hl
    rw [hr]
    obtain ⟨s, o⟩ := r
    simp only at h1 hl
    subst h1
    exact ⟨rfl, _, lists_set _ _ hl k j⟩

variable {P S : Type}

/-- **C124.** A record at or above the minimum level is one line with its level, message and source, and the tags the context and the arguments give, each once and with its
value; unless one of them is called "level" or "msg". -/
theorem C124_line_partial (ops : FmtOps P S) (levelText : Int → String) (asList : Tags → List (String × String)) (min : Int) (c : Option Ctx) (level : Int) (src f : String)
    (args : List (Arg P S)) (hmin : min ≤ level) (hs : Lists (formatMsg ops (extractTags c) f args).2.1 (asList (formatMsg ops (extractTags c) f args).2.1))
    (h1 : (formatMsg ops (extractTags c) f args).2.1 "level" = none) (h2 : (formatMsg ops (extractTags c) f args).2.1 "msg" = none) :
    ∃ line, (logCall ops levelText asList min c level src f args).1 = .ok (some line) ∧
      line.top = [⟨"level", .text (levelText level)⟩, ⟨"message", .text (formatMsg ops (extractTags c) f args).1⟩] ++ (if src ≠ "" then [⟨"src", .text src⟩] else []) ∧
      (line.tags.map (·.key)).Nodup ∧ ∀ k v, (⟨k, v⟩ : Attr) ∈ line.tags ↔ ∃ j, v = .json j ∧ (formatMsg ops (extractTags c) f args).2.1 k = some j := by
  refine ⟨⟨_, tagAttrs (asList (formatMsg ops (extractTags c) f args).2.1)⟩, ?_, rfl, ?_, ?_⟩
  · simp only [logCall, emit]
    rw [if_neg (Int.not_lt.2 hmin), top_ok]
    simp only
    rw [replaceAll_id]
    intro p hp
    have hm := (hs.2 p.1 p.2).1 hp
    refine ⟨?_, ?_⟩
    · intro e; rw [e, h1] at hm; cases hm
    · intro e; rw [e, h2] at hm; cases hm
  · have : (tagAttrs (asList (formatMsg ops (extractTags c) f args).2.1)).map (·.key) = (asList (formatMsg ops (extractTags c) f args).2.1).map (·.1) := by
      simp [tagAttrs]
    simp only [this]
    exact hs.1
  · intro k v
    simp only [tagAttrs, List.mem_map]
    constructor
    · rintro ⟨p, hp, e⟩
      cases e
      exact ⟨p.2, rfl, (hs.2 p.1 p.2).1 hp⟩
    · rintro ⟨j, rfl, hj⟩
      exact ⟨(k, j), (hs.2 k j).2 hj, rfl⟩

/-- **C124.** A record below the minimum level is not written, and harmless whatever its tags. -/
theorem C124_dropped_partial (ops : FmtOps P S) (levelText : Int → String) (asList : Tags → List (String × String)) (min : Int) (c : Option Ctx) (level : Int) (src f : String)
    (args : List (Arg P S)) (hmin : level < min) : (logCall ops levelText asList min c level src f args).1 = .ok none := by
  simp only [logCall, emit]
  rw [if_pos hmin]

/-- **C124, violated.** With a tag called "level", logging panics. -/
theorem C124_level_violated (ops : FmtOps P S) (levelText : Int → String) (asList : Tags → List (String × String)) (min : Int) (c : Option Ctx) (level : Int) (src f : String)
    (args : List (Arg P S)) (hmin : min ≤ level)
    (hs : Lists (formatMsg ops (extractTags c) f args).2.1 (asList (formatMsg ops (extractTags c) f args).2.1)) (j : String) (h : (formatMsg ops (extractTags c) f args).2.1 "level" = some j) :
    ∃ e, (logCall ops levelText asList min c level src f args).1 = .error e := by
  obtain ⟨e, he⟩ := replaceAll_panics levelText _ ⟨("level", j), (hs.2 _ _).2 h, rfl⟩
  refine ⟨e, ?_⟩
  simp only [logCall, emit]
  rw [if_neg (Int.not_lt.2 hmin), top_ok]
  simp only [he]

/-- Tagging a context is enough: no argument removes the tag. -/
theorem C124_tag_violated (ops : FmtOps P S) (levelText : Int → String) (asList : Tags → List (String × String)) (min : Int) (c : Ctx) (j : String) (level : Int) (src f : String)
    (hmin : min ≤ level)
    (hs : Lists (extractTags (some (.tag "level" j c))) (asList (extractTags (some (.tag "level" j c))))) (hc : extractTags (some (.tag "level" j c)) "level" = some j) :
    ∃ e, (logCall ops levelText asList min (some (.tag "level" j c)) level src f ([] : List (Arg P S))).1 = .error e := by
  refine C124_level_violated ops levelText asList min _ level src f [] hmin ?_ j ?_
  · simpa [formatMsg, formatLoop] using hs
  · simpa [formatMsg, formatLoop] using hc

example : extractTags (some (.tag "level" "\"high\"" .background)) "level" = some "\"high\"" := by decide
example : emit (fun _ => "info") (-4) 0 "hi" "a.go:1" [("user", "7"), ("level", "\"high\"")] = .error .typeAssert := by decide
example : emit (fun _ => "info") (-4) 0 "hi" "a.go:1" [("user", "7"), ("msg", "1")] =
    .ok (some ⟨[⟨"level", .text "info"⟩, ⟨"message", .text "hi"⟩, ⟨"src", .text "a.go:1"⟩], [⟨"user", .json "7"⟩, ⟨"message", .json "1"⟩]⟩) := by decide
example : emit (fun _ => "debug") 0 (-4) "hi" "" [("level", "1")] = .ok none := by decide

/-! ### the level -/

/-- The level set last, if any. -/
def lastSet : List Use → Option Int
  | [] => none
  | u :: l => match lastSet l with
    | some x => some x
    | none => match u with
      | .setLevel x => some x
      | _ => none

theorem lastSet_append (l : List Use) (u : Use) : lastSet (l ++ [u]) = match u with | .setLevel x => some x | _ => lastSet l := by
  induction l with
  | nil => cases u <;> rfl
  | cons v l ih =>
    simp only [List.cons_append, lastSet, ih]
    cases u <;> simp

theorem min_lastSet (l : List Use) (h : Use.newLogger ∉ l) : (uses l).1 = (lastSet l).getD (-4) := by
  unfold uses
  suffices ∀ (l : List Use) (s : Int × List Int), Use.newLogger ∉ l → (l.foldl use s).1 = (lastSet l).getD s.1 from this l _ h
  intro l
  induction l with
  | nil => intro s _; rfl
  | cons u l ih =>
    intro s hu
    simp only [List.foldl_cons, lastSet]
    rw [ih _ (fun hm => hu (by simp [hm]))]
    cases u with
    | newLogger => exact absurd (by simp) hu
    | setLevel x => cases lastSet l <;> simp [use]
    | log x => cases lastSet l <;> simp [use]

/-- **C124.** A record is written exactly if its level is at least the one set last (`debug`, -4, at first), as long as no other default logger is made. -/
theorem C124_set_partial (l : List Use) (level : Int) (h : Use.newLogger ∉ l) :
    (uses (l ++ [.log level])).2 = if level < (lastSet l).getD (-4) then (uses l).2 else level :: (uses l).2 := by
  rw [← min_lastSet l h]
  simp only [uses, List.foldl_append, List.foldl_cons, List.foldl_nil, use]
  rfl

/-- **C124, violated.** Making another default logger sets the level of all of them back to `debug`. -/
theorem C124_reset_violated (l : List Use) (level : Int) (h : -4 ≤ level) :
    (uses (l ++ [.setLevel (level + 1), .newLogger, .log level])).2 = level :: (uses l).2 ∧ (uses (l ++ [.setLevel (level + 1), .log level])).2 = (uses l).2 := by
  simp only [uses, List.foldl_append, List.foldl_cons, List.foldl_nil, use]
  exact ⟨if_neg (Int.not_lt.2 h), if_pos (Int.lt_succ level)⟩

example : (uses [.log (-4), .setLevel 4, .log 0, .log 8]).2 = [8, -4] := by decide

end Verif.Ctx.Slog

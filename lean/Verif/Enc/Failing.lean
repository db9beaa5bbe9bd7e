import Verif.Enc.TypedProps
/-!
# A callback for unknown fields that refuses some (enc/handler.go L17-18, enc/map.go L107-115) (C42)
-/
set_option autoImplicit false
namespace Verif.Enc.Failing
open Verif.Strconv Verif.Enc

variable {X : Ext}

/-- Reporting ends with the first that is refused. -/
theorem reportAll_first (cb : Str → Node X → Bool) : ∀ l : List (Str × Node X),
    ((∀ e ∈ l, cb e.1 e.2 = false) ∧ reportAll cb l = (.ok, l)) ∨
    ∃ a e b, l = a ++ e :: b ∧ (∀ x ∈ a, cb x.1 x.2 = false) ∧ cb e.1 e.2 = true ∧ reportAll cb l = (.err, a ++ [e])
  | [] => Or.inl ⟨fun _ h => absurd h (by simp), rfl⟩
  | (k, n) :: l => by
    cases hc : cb k n with
    | true => exact Or.inr ⟨[], (k, n), l, rfl, fun _ h => absurd h (by simp), hc, by simp [reportAll, hc]⟩
    | false =>
      rcases reportAll_first cb l with ⟨h1, h2⟩ | ⟨a, e, b, h1, h2, h3, h4⟩
      · refine Or.inl ⟨fun e he => ?_, by simp [reportAll, hc, h2]⟩
        rcases List.mem_cons.1 he with rfl | he
        · exact hc
        · exact h1 e he
      · refine Or.inr ⟨(k, n) :: a, e, b, by rw [h1]; rfl, fun x hx => ?_, h3, by simp [reportAll, hc, h4]⟩
        rcases List.mem_cons.1 hx with rfl | hx
        · exact hc
        · exact h2 x hx

open Classical in
/-- C42: the callback may refuse. Once the fields are set, the unknown keys are reported one after the other: all of them, if none is refused, and that is no error; otherwise up to the first
that is refused, and that is an error. The fields are set either way. -/
theorem C42_refusing (H : Handler X) (cb : Str → Node X → Bool) (hH : H.unhandled = some cb) (O : Order) (fs : Fields) (m : List (Str × Node X)) (old : FVals X fs)
    (hok : (uFields H O fs m old).st = .ok) :
    (unmarshal H O (.struct fs) (.map m) old).val = (uFields H O fs m old).val ∧
    ∃ reported rest, (unmarshal H O (.struct fs) (.map m) old).calls = (uFields H O fs m old).calls ++ reported ∧
      (reported ++ rest).Perm (m.filter fun e => ¬ ∃ f ∈ fs.infos, Named f e.1) ∧
      (((unmarshal H O (.struct fs) (.map m) old).st = .ok ∧ rest = [] ∧ ∀ e ∈ reported, cb e.1 e.2 = false) ∨
        ((unmarshal H O (.struct fs) (.map m) old).st = .err ∧ ∃ a e, reported = a ++ [e] ∧ cb e.1 e.2 = true ∧ ∀ x ∈ a, cb x.1 x.2 = false)) := by
  have hp : (unknown O fs m).Perm (m.filter fun e => ¬ ∃ f ∈ fs.infos, Named f e.1) := by
    unfold unknown
    refine ((O.isPerm m).filter _).trans ?_
    apply List.Perm.of_eq
    apply List.filter_congr
    intro e _
    rw [Bool.eq_iff_iff]
    simp [← seen_named]
  rw [un_struct_map]
  refine ⟨uStruct_val H O fs m _, ?_⟩
  unfold uStruct report
  rw [hok, hH]
  simp only
  rcases reportAll_first cb (unknown O fs m) with ⟨h1, h2⟩ | ⟨a, e, b, h1, h2, h3, h4⟩
  · exact ⟨unknown O fs m, [], by rw [h2], by rw [List.append_nil]; exact hp, Or.inl ⟨by rw [h2], rfl, h1⟩⟩
  · exact ⟨a ++ [e], b, by rw [h4], by rw [h1] at hp; simpa using hp, Or.inr ⟨by rw [h4], a, e, rfl, h3, h2⟩⟩

/-- So an object with a key that is refused is an error, whatever the order in which keys are visited. -/
theorem C42_refused (H : Handler X) (cb : Str → Node X → Bool) (hH : H.unhandled = some cb) (O : Order) (fs : Fields) (m : List (Str × Node X)) (old : FVals X fs)
    (hok : (uFields H O fs m old).st = .ok) : (unmarshal H O (.struct fs) (.map m) old).st = .err ↔ ∃ e ∈ m, (¬ ∃ f ∈ fs.infos, Named f e.1) ∧ cb e.1 e.2 = true := by
  obtain ⟨_, reported, rest, _, h2, h3⟩ := C42_refusing H cb hH O fs m old hok
  have hmem : ∀ e, e ∈ reported ++ rest ↔ e ∈ m ∧ ¬ ∃ f ∈ fs.infos, Named f e.1 := fun e => by
    rw [h2.mem_iff, List.mem_filter]; simp
  rcases h3 with ⟨h4, h5, h6⟩ | ⟨h4, a, e, h5, h6, _⟩
  · rw [h4]
    refine ⟨(nomatch ·), ?_⟩
    rintro ⟨e, he, hn, hc⟩
    have := (hmem e).2 ⟨he, hn⟩
    rw [h5, List.append_nil] at this
    rw [h6 e this] at hc; cases hc
  · rw [h4]
    refine ⟨fun _ => ?_, fun _ => rfl⟩
    have := (hmem e).1 (by rw [h5]; simp)
    exact ⟨e, this.1, this.2, h6⟩

/-! ### concrete cases -/

/-- `struct { A int }`, of `{"A":1,"B":2,"C":3}` where `B` is refused. -/
example : let o := unmarshal (X := XT) ⟨some fun k _ => k == lit "B"⟩ sortedOrder (.struct (.cons { name := lit "A" } (.int .w64) .nil)) (.map [(lit "A", .int 1), (lit "B", .int 2), (lit "C", .int 3)]) ((0 : BitVec 64), ())
    o.st = .err ∧ o.calls.map (·.1) = [lit "B"] ∧ (show BitVec 64 from o.val.1) = 1 := by decide +kernel

end Verif.Enc.Failing

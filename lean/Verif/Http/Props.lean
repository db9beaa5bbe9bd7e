import Verif.Http.Spec
import Verif.Enc.JsonProps
/-!
# Properties of http responses (C56-C58)
-/
set_option autoImplicit false
namespace Verif.Http
open Verif.Strconv Verif.Enc Verif.Api

/-! ### C58: the first status wins -/

theorem run_step {W : Type} {O : Writer W} {o : Op} {l : List Op} {w w' : W} {r : Option W} (h : step O w o = some w') (hr : run O l w' = r) :
    run O (o :: l) w = r := by rw [run, h]; exact hr

theorem run_stop {W : Type} {O : Writer W} {o : Op} {l : List Op} {w : W} (h : step O w o = none) : run O (o :: l) w = none := by rw [run, h]; rfl

theorem recW_closed : ∀ (ops acc : List Op) (c : Int), c ≠ 0 → run (wrap recW) ops ⟨acc, c⟩ = some ⟨acc ++ ops.filter (fun o => !isHeader o), c⟩
  | [], acc, c, _ => by simp [run]
  | .header k :: l, acc, c, hc => by
    simp only [run, step, wrap, ne_eq, hc, not_false_eq_true, if_true, Option.bind_some]
    exact (recW_closed l acc c hc).trans (by simp [isHeader])
  | .write b :: l, acc, c, hc => by
    simp only [run, step, wrap, recW, Option.map_some, hc, if_false, Option.bind_some]
    exact (recW_closed l _ c hc).trans (by simp [isHeader])
  | .add k v :: l, acc, c, hc => by
    simp only [run, step, wrap, recW, Option.map_some, Option.bind_some]
    exact (recW_closed l _ c hc).trans (by simp [isHeader])

theorem headerCodes_filter : ∀ (l : List Op), headerCodes (l.filter (fun o => !isHeader o)) = []
  | [] => rfl
  | .header _ :: l => by simpa [isHeader] using headerCodes_filter l
  | .write _ :: l => by simpa [isHeader, headerCodes] using headerCodes_filter l
  | .add _ _ :: l => by simpa [isHeader, headerCodes] using headerCodes_filter l

theorem headerCodes_append : ∀ (l m : List Op), headerCodes (l ++ m) = headerCodes l ++ headerCodes m
  | [], _ => rfl
  | .header c :: l, m => by simp [headerCodes, headerCodes_append l m]
  | .write _ :: l, m => by simp [headerCodes, headerCodes_append l m]
  | .add _ _ :: l, m => by simp [headerCodes, headerCodes_append l m]

theorem recW_open : ∀ (ops acc : List Op), (∀ o ∈ ops, o ≠ .header 0) → ∃ l c, run (wrap recW) ops ⟨acc, 0⟩ = some ⟨acc ++ l, c⟩ ∧
    l.Sublist ops ∧ l.filter (fun o => !isHeader o) = ops.filter (fun o => !isHeader o) ∧ c = (firstStatus ops).getD 0 ∧
    (headerCodes l = [] ∨ ∃ k pre post, ops = pre ++ .header k :: post ∧ firstStatus pre = none ∧ headerCodes l = [k]) ∧
    (∀ pre k post, ops = pre ++ .header k :: post → firstStatus pre = none → headerCodes l = [k])
  | [], acc, _ => ⟨[], 0, by simp [run], List.Sublist.refl _, rfl, rfl, Or.inl rfl, by intro pre k post h; cases pre <;> cases h⟩
  | .header k :: l, acc, hz => by
    have hk : k ≠ 0 := fun h => hz (.header k) (List.mem_cons_self ..) (by rw [h])
    have e : run (wrap recW) (.header k :: l) ⟨acc, 0⟩ = some ⟨acc ++ .header k :: l.filter (fun o => !isHeader o), k⟩ := by
      simp only [run, step, wrap, recW, ne_eq, not_true_eq_false, if_false, Option.map_some, Option.bind_some]
      exact (recW_closed l _ k hk).trans (by simp)
    have hh : headerCodes (.header k :: l.filter (fun o => !isHeader o)) = [k] := by simp [headerCodes, headerCodes_filter]
    refine ⟨_, _, e, List.Sublist.cons_cons _ List.filter_sublist, ?_, rfl, Or.inr ⟨k, [], l, rfl, rfl, hh⟩, ?_⟩
    · simp [isHeader, List.filter_filter]
    · intro pre k' post h hp
      cases pre with
      | nil => injection h with h _; injection h with h; rw [hh, h]
      | cons o pre => injection h with h _; subst h; cases hp
  | .write b :: l, acc, _ => by
    have e : run (wrap recW) (.write b :: l) ⟨acc, 0⟩ = some ⟨acc ++ .write b :: l.filter (fun o => !isHeader o), 200⟩ := by
      simp only [run, step, wrap, recW, Option.map_some, Option.bind_some, if_true]
      exact (recW_closed l _ 200 (by decide)).trans (by simp)
    refine ⟨_, _, e, List.Sublist.cons_cons _ List.filter_sublist, ?_, rfl, Or.inl (by simp [headerCodes, headerCodes_filter]), ?_⟩
    · simp [isHeader, List.filter_filter]
    · intro pre k' post h hp
      cases pre with
      | nil => injection h with h _; cases h
      | cons o pre => injection h with h _; subst h; cases hp
  | .add k v :: l, acc, hz => by
    obtain ⟨m, c, h1, h2, h3, h4, h5, h6⟩ := recW_open l (acc ++ [.add k v]) (fun o ho => hz o (List.mem_cons_of_mem _ ho))
    refine ⟨.add k v :: m, c, ?_, List.Sublist.cons_cons _ h2, ?_, h4, ?_, ?_⟩
    · exact run_step (by simp [step, wrap, recW]; rfl) (by simpa using h1)
    · simpa [List.filter_cons, show isHeader (.add k v) = false from rfl] using h3
    · rcases h5 with h5 | ⟨k', pre, post, h7, h8, h9⟩
      · exact Or.inl h5
      · exact Or.inr ⟨k', .add k v :: pre, post, by rw [h7]; rfl, h8, h9⟩
    · intro pre k' post h hp
      cases pre with
      | nil => injection h with h _; cases h
      | cons o pre => injection h with h h'; subst h; exact h6 pre k' post h' hp

/-- Whatever the handler calls (with codes other than 0), the wrapper never panics by itself and forwards the other calls in order, and at most one
`WriteHeader`: the one before which there was no `WriteHeader` and no `Write`. -/
theorem C58_forwarded (ops : List Op) (hz : ∀ o ∈ ops, o ≠ .header 0) : ∃ fwd code, run (wrap recW) ops ⟨[], 0⟩ = some ⟨fwd, code⟩ ∧
    fwd.Sublist ops ∧ fwd.filter (fun o => !isHeader o) = ops.filter (fun o => !isHeader o) ∧ code = (firstStatus ops).getD 0 ∧
    (headerCodes fwd = [] ∨ ∃ k pre post, ops = pre ++ .header k :: post ∧ firstStatus pre = none ∧ headerCodes fwd = [k]) ∧
    (∀ pre k post, ops = pre ++ .header k :: post → firstStatus pre = none → headerCodes fwd = [k]) := by
  simpa using recW_open ops [] hz

/-- The second status is kept back. -/
example : run (wrap recW) [.header 404, .write [1], .header 200, .write [2]] ⟨[], 0⟩ = some ⟨[.header 404, .write [1], .write [2]], 404⟩ := by decide

/-- What happens once the status is settled. -/
theorem net_closed : ∀ (ops : List Op) (w : NetW) (c s : Int), c ≠ 0 → w.status = some s →
    ∃ w', run (wrap netW) ops ⟨w, c⟩ = some ⟨w', c⟩ ∧ w'.status = some s ∧ w'.sent = w.sent ∧ w'.body = (if bodyAllowed s then w.body ++ written ops else w.body)
  | [], w, c, s, _, hs => ⟨w, rfl, hs, rfl, by simp [written]⟩
  | .header k :: l, w, c, s, hc, hs => by
    obtain ⟨w', h⟩ := net_closed l w c s hc hs
    exact ⟨w', by exact run_step (by simp [step, wrap, ne_eq, hc, not_false_eq_true, if_true]) h.1, h.2⟩
  | .write b :: l, w, c, s, hc, hs => by
    by_cases hb : bodyAllowed s = true
    · obtain ⟨w', h⟩ := net_closed l { w with body := w.body ++ b } c s hc hs
      refine ⟨w', ?_, h.2.1, h.2.2.1, ?_⟩
      · exact run_step (by simp [step, wrap, netW, NetW.write, hs, hb, if_true, Option.map_some, hc, if_false]) h.1
      · rw [h.2.2.2]; simp [hb, written]
    · obtain ⟨w', h⟩ := net_closed l w c s hc hs
      refine ⟨w', ?_, h.2.1, h.2.2.1, ?_⟩
      · exact run_step (by simp [step, wrap, netW, NetW.write, hs, hb, if_false, Option.map_some, hc]) h.1
      · rw [h.2.2.2]; simp [hb]
  | .add k v :: l, w, c, s, hc, hs => by
    obtain ⟨w', h⟩ := net_closed l { w with hdr := w.hdr ++ [(k, v)] } c s hc hs
    exact ⟨w', by exact run_step (by simp [step, wrap, netW, Option.map_some]) h.1, h.2⟩

/-- After an informational code the wrapper drops all codes, and the next `Write`, or the end, means 200. -/
theorem net_informed : ∀ (ops : List Op) (w : NetW) (c : Int), c ≠ 0 → w.status = none → w.body = [] →
    ∃ w', run (wrap netW) ops ⟨w, c⟩ = some ⟨w', c⟩ ∧ w'.finish.status = 200 ∧ w'.finish.body = written ops
  | [], w, c, _, hs, _ => ⟨w, rfl, by simp [NetW.finish, hs], by simp [NetW.finish, hs, written]⟩
  | .header k :: l, w, c, hc, hs, hb => by
    obtain ⟨w', h⟩ := net_informed l w c hc hs hb
    exact ⟨w', by exact run_step (by simp [step, wrap, ne_eq, hc, not_false_eq_true, if_true]) h.1, h.2⟩
  | .write b :: l, w, c, hc, hs, hb => by
    obtain ⟨w', h1, h2, h3, h4⟩ := net_closed l { w with status := some 200, sent := w.hdr, body := w.body ++ b } c 200 hc rfl
    refine ⟨w', ?_, by simp [NetW.finish, h2], ?_⟩
    · have hk : bodyAllowed 200 = true := rfl
      exact run_step (by simp [step, wrap, netW, NetW.write, hs, hk, if_true, Option.map_some, hc, if_false]) h1
    · have hk : bodyAllowed 200 = true := rfl
      simp [NetW.finish, h2, h4, hk, hb, written]
  | .add k v :: l, w, c, hc, hs, hb => by
    obtain ⟨w', h⟩ := net_informed l { w with hdr := w.hdr ++ [(k, v)] } c hc hs hb
    exact ⟨w', by exact run_step (by simp [step, wrap, netW, Option.map_some]) h.1, h.2⟩

theorem net_open : ∀ (ops : List Op) (w : NetW), w.status = none → w.body = [] →
    (firstStatus ops = none → ∃ w', run (wrap netW) ops ⟨w, 0⟩ = some ⟨w', 0⟩ ∧ w'.status = none) ∧
    ∀ c, firstStatus ops = some c →
      ((c < 100 ∨ 999 < c) → run (wrap netW) ops ⟨w, 0⟩ = none) ∧
      (100 ≤ c → c ≤ 999 → informational c = true → ∃ w', run (wrap netW) ops ⟨w, 0⟩ = some ⟨w', c⟩ ∧ w'.finish.status = 200 ∧ w'.finish.body = written ops) ∧
      (100 ≤ c → c ≤ 999 → informational c = false → ∃ w', run (wrap netW) ops ⟨w, 0⟩ = some ⟨w', c⟩ ∧ w'.status = some c ∧
        w'.body = (if bodyAllowed c then written ops else []))
  | [], w, hs, _ => ⟨fun _ => ⟨w, rfl, hs⟩, fun c h => by cases h⟩
  | .header k :: l, w, hs, hb => by
    refine ⟨(fun h => by cases h), fun c h => ?_⟩
    injection h with h; subst h
    refine ⟨fun h => ?_, fun h1 h2 hi => ?_, fun h1 h2 hi => ?_⟩
    · simp only [run, step, wrap, netW, ne_eq, not_true_eq_false, if_false, NetW.header, hs, h, if_true, Option.map_none, Option.bind_none]
    · have hk : ¬(k < 100 ∨ 999 < k) := by omega
      obtain ⟨w', h⟩ := net_informed l { w with infos := w.infos ++ [k] } k (by omega) hs hb
      exact ⟨w', by exact run_step (by simp [step, wrap, netW, ne_eq, not_true_eq_false, if_false, NetW.header, hs, hk, hi, if_true, Option.map_some]) h.1, h.2⟩
    · have hk : ¬(k < 100 ∨ 999 < k) := by omega
      obtain ⟨w', h3, h4, _, h6⟩ := net_closed l { w with status := some k, sent := w.hdr } k k (by omega) rfl
      refine ⟨w', ?_, h4, by rw [h6]; simp [hb, written]⟩
      exact run_step (by simp [step, wrap, netW, ne_eq, not_true_eq_false, if_false, NetW.header, hs, hk, hi, Option.map_some]) h3
  | .write b :: l, w, hs, hb => by
    refine ⟨(fun h => by cases h), fun c h => ?_⟩
    injection h with h; subst h
    refine ⟨(fun h => by omega), (fun _ _ hi => by cases hi), fun _ _ _ => ?_⟩
    obtain ⟨w', h3, h4, _, h6⟩ := net_closed l { w with status := some 200, sent := w.hdr, body := w.body ++ b } 200 200 (by decide) rfl
    have hk : bodyAllowed 200 = true := rfl
    refine ⟨w', ?_, h4, by rw [h6]; simp [hb, hk, written]⟩
    exact run_step (by simp [step, wrap, netW, NetW.write, hs, hk, if_true, Option.map_some]) h3
  | .add k v :: l, w, hs, hb => by
    have e (w) : run (wrap netW) (.add k v :: l) ⟨w, 0⟩ = run (wrap netW) l ⟨{ w with hdr := w.hdr ++ [(k, v)] }, 0⟩ := by
      simp only [run, step, wrap, netW, Option.map_some, Option.bind_some]
    rw [e]
    exact net_open l _ hs hb

/-- The handler panics exactly if the first status is not a code. -/
theorem C58_panics (ops : List Op) : serve ops = none ↔ ∃ c, firstStatus ops = some c ∧ (c < 100 ∨ 999 < c) := by
  have h := net_open ops {} rfl rfl
  cases hf : firstStatus ops with
  | none =>
    obtain ⟨w', h1, _⟩ := h.1 hf
    simp [serve, h1]
  | some c =>
    obtain ⟨h1, h2, h3⟩ := h.2 c hf
    by_cases hc : c < 100 ∨ 999 < c
    · simp [serve, h1 hc, hc]
    · by_cases hi : informational c = true
      · obtain ⟨w', h4, _⟩ := h2 (by omega) (by omega) hi
        simp [serve, h4, hc]
      · obtain ⟨w', h4, _⟩ := h3 (by omega) (by omega) (by simpa using hi)
        simp [serve, h4, hc]

example : serve [.header 42] = none ∧ serve [.header 1000, .write [1]] = none ∧ (serve [.write [1], .header 42]).isSome = true := by decide +kernel

/-- If the status is settled by a final code, the client sees this code, with all that is written if the code allows a body, and it is the one measured. -/
theorem C58_measured_partial (ops : List Op) (c : Int) (hf : firstStatus ops = some c) (hi : informational c = false) (r : Resp) (m : Int)
    (h : serve ops = some (r, m)) : r.status = c ∧ m = c ∧ r.body = (if bodyAllowed c then written ops else []) := by
  by_cases hc : c < 100 ∨ 999 < c
  · rw [(C58_panics ops).2 ⟨c, hf, hc⟩] at h; cases h
  · obtain ⟨w', h1, h2, h3⟩ := ((net_open ops {} rfl rfl).2 c hf).2.2 (by omega) (by omega) hi
    simp only [serve, h1, Option.map_some, Option.some.injEq, Prod.mk.injEq] at h
    rw [← h.1, ← h.2]
    simp [NetW.finish, h2, h3]

example : serve [.header 304, .write [1, 2]] = some (⟨304, [], []⟩, 304) ∧ serve [.write [1], .header 500, .write [2]] = some (⟨200, [], [1, 2]⟩, 200) := by decide +kernel

/-- C58: switching protocols is a final status, unlike the other codes below 200; it has no body. -/
theorem C58_switching (ops : List Op) (hf : firstStatus ops = some 101) : ∃ r, serve ops = some (r, 101) ∧ r.status = 101 ∧ r.body = [] := by
  have hn : serve ops ≠ none := fun h => by
    obtain ⟨c, h1, h2⟩ := (C58_panics ops).1 h
    rw [hf] at h1; injection h1 with h1; omega
  obtain ⟨⟨r, m⟩, hr⟩ := Option.ne_none_iff_exists'.1 hn
  obtain ⟨h1, h2, h3⟩ := C58_measured_partial ops 101 hf (by decide) r m hr
  exact ⟨r, by rw [hr, h2], h1, by rw [h3]; rfl⟩

example : serve [.header 101, .write [1]] = some (⟨101, [], []⟩, 101) := by decide +kernel

/-- After an informational code the client sees 200, whatever code comes next, and the informational one is measured; a handler that writes nothing is
answered 200, and 0 is measured. -/
theorem C58_violated (ops : List Op) : (∀ c, firstStatus ops = some c → informational c = true → ∃ r, serve ops = some (r, c) ∧ r.status = 200) ∧
    (firstStatus ops = none → ∃ r, serve ops = some (r, 0) ∧ r.status = 200) := by
  refine ⟨fun c hf hi => ?_, fun hf => ?_⟩
  · have hc : 100 ≤ c ∧ c ≤ 199 := by simp [informational] at hi; omega
    obtain ⟨w', h1, h2, _⟩ := ((net_open ops {} rfl rfl).2 c hf).2.1 (by omega) (by omega) hi
    exact ⟨_, by simp only [serve, h1, Option.map_some], h2⟩
  · obtain ⟨w', h1, h2⟩ := (net_open ops {} rfl rfl).1 hf
    exact ⟨w'.finish, by simp only [serve, h1, Option.map_some], by simp [NetW.finish, h2]⟩

example : serve [] = some (⟨200, [], []⟩, 0) ∧ serve [.header 102] = some (⟨200, [], []⟩, 102) := by decide +kernel

/-- C58: which codes these are: the first code written is what the client sees unless it is one of 100 and 102 to 199, and then the client sees 200; codes from 200 to 999 and 101 are final. -/
theorem C58_codes (ops : List Op) (c : Int) (hf : firstStatus ops = some c) :
    ((c = 100 ∨ 102 ≤ c ∧ c ≤ 199) → ∃ r, serve ops = some (r, c) ∧ r.status = 200) ∧
    ((c = 101 ∨ 200 ≤ c ∧ c ≤ 999) → ∃ r, serve ops = some (r, c) ∧ r.status = c) ∧ ((c < 100 ∨ 999 < c) → serve ops = none) := by
  refine ⟨fun h => (C58_violated ops).1 c hf (by simp [informational]; omega), fun h => ?_, fun h => (C58_panics ops).2 ⟨c, hf, h⟩⟩
  have hn : serve ops ≠ none := fun h' => by
    obtain ⟨c', h1, h2⟩ := (C58_panics ops).1 h'
    rw [hf] at h1; injection h1 with h1; omega
  obtain ⟨⟨r, m⟩, hr⟩ := Option.ne_none_iff_exists'.1 hn
  obtain ⟨h1, h2, _⟩ := C58_measured_partial ops c hf (by simp [informational]; omega) r m hr
  exact ⟨r, by rw [hr, h2], h1⟩

example : (serve [.header 199]).map (fun p => (p.1.status, p.2)) = some (200, 199) ∧ (serve [.header 999]).map (fun p => (p.1.status, p.2)) = some (999, 999) ∧ serve [.header 99] = none := by
  decide +kernel

theorem nested {W : Type} (O : Writer W) : ∀ (ops : List Op) (w : W) (c : Int),
    run (wrap (wrap O)) ops ⟨⟨w, c⟩, c⟩ = (run (wrap O) ops ⟨w, c⟩).map fun r => ⟨r, r.code⟩
  | [], _, _ => rfl
  | .header k :: l, w, c => by
    by_cases hc : c = 0
    · subst hc
      simp only [run, step]
      cases h : O.header w k with
      | none => simp [wrap, h]
      | some w' => simpa [wrap, h] using nested O l w' k
    · simpa [run, step, wrap, hc] using nested O l w c
  | .write b :: l, w, c => by
    simp only [run, step]
    cases h : O.write w b with
    | none => simp [wrap, h]
    | some w' => simpa [wrap, h] using nested O l w' _
  | .add k v :: l, w, c => by
    simp only [run, step]
    cases h : O.add w k v with
    | none => simp [wrap, h]
    | some w' => simpa [wrap, h] using nested O l w' _

/-- Wrapping twice changes nothing, and both measure the same. -/
theorem C58_nested (ops : List Op) : serveNested ops = (serve ops).map fun p => (p.1, p.2, p.2) := by
  simp only [serveNested, serve, nested]
  cases run (wrap netW) ops ⟨{}, 0⟩ <;> rfl

/-- C58: an early hint, then 404. -/
example : serve [.header 103, .header 404, .write [1]] = some (⟨200, [], [1]⟩, 103) := by decide +kernel
/-- C58: the second code is dropped. -/
example : serve [.add (lit "a") (lit "b"), .header 404, .write [1], .header 200, .write [2]] = some (⟨404, [(lit "a", lit "b")], [1, 2]⟩, 404) := by decide +kernel

/-! ### C56, C57: request handlers -/

theorem run_append {W : Type} (O : Writer W) : ∀ (l m : List Op) (w : W), run O (l ++ m) w = (run O l w).bind fun w => run O m w
  | [], _, _ => rfl
  | o :: l, m, w => by
    simp only [List.cons_append, run]
    cases step O w o with
    | none => rfl
    | some w' => exact run_append O l m w'

/-- The answer to an error with a code in 200-999. -/
theorem error_answer (N : NetExt) (tid accept : Str) (e : Error) (code : Int) (hc : Errors.errorCode (some e) 500 = code) (hs : ErrorStatus code) :
    (requestOps N tid accept (.err e)).bind serve =
      some (⟨code, [], if bodyAllowed code then utf8 (if code < 500 then clientError (errText N e) tid else internalError tid) else []⟩, code) := by
  obtain ⟨h1, h2⟩ := hs
  have k1 : ¬(code < 100 ∨ 999 < code) := by omega
  have k2 : informational code = false := by simp [informational]; omega
  have k3 : code ≠ 0 := by omega
  simp only [requestOps, hc, Option.bind_some, serve, run, step, wrap, netW, NetW.header, NetW.write, ne_eq, not_true_eq_false, if_false, k1, k2, k3,
    Option.map_some, Bool.false_eq_true]
  by_cases hb : bodyAllowed code = true
  · simp [hb, NetW.finish, k3]
  · simp [hb, NetW.finish, k3]

/-- An error is answered with its code, or 500; there are no headers; the body is as given, if the code allows for one. -/
theorem C56_answer_partial (N : NetExt) (tid accept : Str) (f : Bytes → Done Bytes) (body : Option (Option Bytes)) (e : Error)
    (hf : readBody N f body = .err e) (hs : ErrorStatus (Errors.errorCode (some e) 500)) : ∃ r, handleRequest N tid accept f body = some (r, r.status) ∧
      r.status = Errors.errorCode (some e) 500 ∧ r.headers = [] ∧ (r.status < 500 → r.status ≠ 204 → r.status ≠ 304 → r.body = utf8 (clientError (errText N e) tid)) ∧
      (500 ≤ r.status → r.body = utf8 (internalError tid)) := by
  refine ⟨_, by simp only [handleRequest, hf]; exact error_answer N tid accept e _ rfl hs, rfl, rfl, fun h1 h2 h3 => ?_, fun h1 => ?_⟩
  · obtain ⟨h4, h5⟩ := hs
    simp only at h1 h2 h3 ⊢
    have hb : bodyAllowed (Errors.errorCode (some e) 500) = true := by
      simp only [bodyAllowed]
      generalize Errors.errorCode (some e) 500 = c at *
      simp [h2, h3]; omega
    simp [hb, h1]
  · obtain ⟨h4, h5⟩ := hs
    simp only at h1 ⊢
    generalize Errors.errorCode (some e) 500 = c at *
    have hb : bodyAllowed c = true := by simp [bodyAllowed]; omega
    have h6 : ¬ c < 500 := by omega
    simp [hb, h6]

/-- An error 404, and one of which the client is only told that it happened. -/
example (N : NetExt) (hN : errText N (.httpErr 404 none) = lit "gone") :
    handleRequest N (lit "7") [] (fun _ => .err (.httpErr 404 none)) (some (some [])) = some (⟨404, [], utf8 (clientError (lit "gone") (lit "7"))⟩, 404) ∧
    handleRequest N (lit "7") [] (fun _ => .err (.httpErr 503 none)) (some (some [])) = some (⟨503, [], utf8 (internalError (lit "7"))⟩, 503) := by
  constructor
  · obtain ⟨r, h1, h2, h3, h4, -⟩ := C56_answer_partial N (lit "7") [] (fun _ => .err (.httpErr 404 none)) (some (some [])) (.httpErr 404 none) rfl ⟨by decide, by decide⟩
    have e : Errors.errorCode (some (.httpErr 404 none : Error)) 500 = 404 := by decide
    rw [e] at h2
    have hb := h4 (by omega) (by omega) (by omega)
    obtain ⟨st, hd, bd⟩ := r
    simp only at h2 h3 hb h1
    subst h2 h3 hb
    rw [h1, hN]
  · obtain ⟨r, h1, h2, h3, -, h5⟩ := C56_answer_partial N (lit "7") [] (fun _ => .err (.httpErr 503 none)) (some (some [])) (.httpErr 503 none) rfl ⟨by decide, by decide⟩
    have e : Errors.errorCode (some (.httpErr 503 none : Error)) 500 = 503 := by decide
    rw [e] at h2
    have hb := h5 (by omega)
    obtain ⟨st, hd, bd⟩ := r
    simp only at h2 h3 hb h1
    subst h2 h3 hb
    rw [h1]

/-- Internal errors do not leak: what is answered depends on the code and the tracking id only. -/
theorem C56_no_leak (N N' : NetExt) (tid accept accept' : Str) (f f' : Bytes → Done Bytes) (body body' : Option (Option Bytes)) (e e' : Error)
    (hf : readBody N f body = .err e) (hf' : readBody N' f' body' = .err e') (hc : Errors.errorCode (some e) 500 = Errors.errorCode (some e') 500)
    (h5 : 500 ≤ Errors.errorCode (some e) 500) : handleRequest N tid accept f body = handleRequest N' tid accept' f' body' := by
  have k : ¬ Errors.errorCode (some e') 500 < 500 := by omega
  simp only [handleRequest, hf, hf', requestOps, hc, k, if_false]

example (N : NetExt) (e e' : Error) : handleRequest N (lit "7") [] (fun _ => .err (.httpErr 500 (some e))) (some (some [])) =
    handleRequest N (lit "7") (lit "gzip") (fun _ => .err (.httpErr 500 (some e'))) (some (some [1, 2])) :=
  C56_no_leak N N _ _ _ _ _ _ _ (.httpErr 500 (some e)) (.httpErr 500 (some e')) rfl rfl rfl (by simp [Errors.errorCode, Errors.Err.asHttp])

/-- The client can read the text of the error and the tracking id from the body, whatever characters they have. -/
theorem C56_readable {X : Ext} (hX : Laws X) (msg tid : Str) :
    decode (X := X) (clientError msg tid) = some (some (.map [(lit "error", .str msg), (lit "tracking", .str tid)])) ∧
    decode (X := X) (internalError tid) = some (some (.map [(lit "tracking", .str tid)])) := by
  have k1 : strLt (lit "error") (lit "tracking") = true := by decide
  have k2 : (1 : Nat) ≤ maxDepth := by decide
  have q1 : jsonStr (lit "error") = lit "\"error\"" := by decide
  have q2 : jsonStr (lit "tracking") = lit "\"tracking\"" := by decide
  refine ⟨C39_plain hX (.map [(lit "error", .str msg), (lit "tracking", .str tid)]) ?_ rfl _ ?_ ?_, C39_plain hX (.map [(lit "tracking", .str tid)]) ?_ rfl _ ?_ ?_⟩
  · simp [Node.WF, Node.mapWF, SortedKeys, k1]
  · have : (Node.map (X := X) [(lit "error", .str msg), (lit "tracking", .str tid)]).encodable = true := by
      simp [Node.encodable, Node.mapEncodable, Node.mapDepth, Node.depth, k2]
    rw [encode, if_pos this]
    simp only [Node.text, Node.mapText, q1, q2, clientError]
    simp [lit]
  · simpa [Node.depth, Node.mapDepth] using k2
  · simp [Node.WF, Node.mapWF, SortedKeys]
  · have : (Node.map (X := X) [(lit "tracking", .str tid)]).encodable = true := by
      simp [Node.encodable, Node.mapEncodable, Node.mapDepth, Node.depth, k2]
    rw [encode, if_pos this]
    simp only [Node.text, Node.mapText, q2, internalError]
    simp [lit]
  · simpa [Node.depth, Node.mapDepth] using k2

example {X : Ext} (hX : Laws X) : decode (X := X) (lit "{\"error\":\"no \\\"a\\\"\",\"tracking\":\"7\"}") = some (some (.map [(lit "error", .str (lit "no \"a\"")), (lit "tracking", .str (lit "7"))])) := by
  have := (C56_readable hX (lit "no \"a\"") (lit "7")).1
  rwa [show clientError (lit "no \"a\"") (lit "7") = lit "{\"error\":\"no \\\"a\\\"\",\"tracking\":\"7\"}" by decide +kernel] at this

/-- An error with an informational code is answered 200, with the text of the error; one with a code that is none has no answer at all. -/
theorem C56_violated (N : NetExt) (tid accept : Str) (f : Bytes → Done Bytes) (body : Option (Option Bytes)) (e : Error) (hf : readBody N f body = .err e) :
    (informational (Errors.errorCode (some e) 500) = true → ∃ r m, handleRequest N tid accept f body = some (r, m) ∧ r.status = 200 ∧
      r.body = utf8 (clientError (errText N e) tid)) ∧
    (Errors.errorCode (some e) 500 < 100 ∨ 999 < Errors.errorCode (some e) 500 → handleRequest N tid accept f body = none) := by
  simp only [handleRequest, hf, requestOps, Option.bind_some]
  generalize Errors.errorCode (some e) 500 = c
  refine ⟨fun hi => ?_, fun hc => (C58_panics _).2 ⟨c, rfl, hc⟩⟩
  have hc : 100 ≤ c ∧ c ≤ 199 := by simp [informational] at hi; omega
  obtain ⟨w', h1, h2, h3⟩ := ((net_open [.header c, .write (utf8 (if c < 500 then clientError (errText N e) tid else internalError tid))] {} rfl rfl).2 c rfl).2.1
    (by omega) (by omega) hi
  refine ⟨w'.finish, c, by simp only [serve]; rw [h1]; rfl, h2, h3.trans ?_⟩
  have : c < 500 := by omega
  simp [written, this]

theorem written_map : ∀ (l : List Bytes), written (l.map .write) = l.flatten
  | [] => rfl
  | b :: l => by simp [written, written_map l]

/-- The answer to chunks with two headers. -/
theorem chunks_answer (hs : List (Str × Str)) (b : Bytes) (l : List Bytes) :
    serve (hs.map (fun p => .add p.1 p.2) ++ (b :: l).map .write) = some (⟨200, hs, (b :: l).flatten⟩, 200) := by
  have hadd : ∀ (hs : List (Str × Str)) (w : NetW), run (wrap netW) (hs.map (fun p => .add p.1 p.2)) ⟨w, 0⟩ = some ⟨{ w with hdr := w.hdr ++ hs }, 0⟩ := by
    intro hs
    induction hs with
    | nil => intro w; simp [run]
    | cons p hs ih => intro w; exact run_step (by simp [step, wrap, netW]; rfl) ((ih _).trans (by simp))
  obtain ⟨w', h1, h2, h3, h4⟩ := net_closed (l.map .write) { hdr := hs, status := some 200, sent := hs, body := b } 200 200 (by decide) rfl
  have hk : bodyAllowed 200 = true := rfl
  have e : run (wrap netW) (hs.map (fun p => .add p.1 p.2) ++ (b :: l).map .write) ⟨{}, 0⟩ = some ⟨w', 200⟩ := by
    rw [run_append, hadd]
    have hst : step (wrap netW) ⟨{ hdr := hs }, 0⟩ (.write b) = some ⟨{ hdr := hs, status := some 200, sent := hs, body := b }, 200⟩ := by
      simp [step, wrap, netW, NetW.write, hk]
    simpa using run_step hst h1
  simp only [serve]
  rw [e]
  simp [NetW.finish, h2, h3, h4, hk, written_map]

/-- `contains` finds exactly the texts that occur. -/
theorem contains_iff (sub : Str) : ∀ s : Str, contains sub s = true ↔ ∃ a b, s = a ++ sub ++ b
  | [] => by
    simp only [contains, List.isEmpty_iff]
    constructor
    · intro h; exact ⟨[], [], by simp [h]⟩
    · rintro ⟨a, b, h⟩
      have := congrArg List.length h
      simp only [List.length_append, List.length_nil] at this
      exact List.length_eq_zero_iff.1 (by omega)
  | c :: cs => by
    simp only [contains, Bool.or_eq_true, List.isPrefixOf_iff_prefix, contains_iff sub cs]
    constructor
    · rintro (⟨b, h⟩ | ⟨a, b, h⟩)
      · exact ⟨[], b, by simpa using h.symm⟩
      · exact ⟨c :: a, b, by simp [h]⟩
    · rintro ⟨a, b, h⟩
      cases a with
      | nil => exact .inl ⟨b, by simpa using h.symm⟩
      | cons d a =>
        simp only [List.cons_append, List.cons.injEq] at h
        exact .inr ⟨a, b, h.2⟩

/-- Nothing is answered 204, without body; anything else 200, as JSON, with exactly these bytes, zipped if there are more than 16384 and the client
accepts. -/
theorem C57_answer (N : NetExt) (gunzip : Bytes → Option Bytes) (hg : GzipLaw N gunzip) (tid accept : Str) (f : Bytes → Done Bytes)
    (body : Option (Option Bytes)) (out : Bytes) (hf : readBody N f body = .ok out) : ∃ r, handleRequest N tid accept f body = some (r, r.status) ∧
      (out = [] → r = ⟨204, [], []⟩) ∧
      (out ≠ [] → r.status = 200 ∧ (lit "Content-Type", lit "application/json") ∈ r.headers ∧
        (((lit "Content-Encoding", lit "gzip") ∈ r.headers ↔ 16384 < out.length ∧ ∃ a b, accept = a ++ lit "gzip" ++ b) ∧
        ((lit "Content-Encoding", lit "gzip") ∈ r.headers → gunzip r.body = some out) ∧
        ((lit "Content-Encoding", lit "gzip") ∉ r.headers → r.body = out))) := by
  rw [← contains_iff]
  simp only [handleRequest, hf, requestOps]
  have hne : (lit "Content-Encoding", lit "gzip") ≠ (lit "Content-Type", lit "application/json") := by decide
  by_cases h0 : out = []
  · subst h0
    exact ⟨⟨204, [], []⟩, rfl, fun _ => rfl, fun h => absurd rfl h⟩
  · have h1 : ¬ out.length = 0 := by simpa using h0
    rw [if_neg h1]
    by_cases h2 : out.length > 16 * 1024 ∧ contains (lit "gzip") accept = true
    · rw [if_pos h2]
      cases hz : N.gz out with
      | nil => have := hg.2 out; rw [hz, List.flatten_nil, hg.1] at this; cases this
      | cons b l =>
        refine ⟨_, chunks_answer [(lit "Content-Type", lit "application/json"), (lit "Content-Encoding", lit "gzip")] b l, fun h => absurd h h0, fun _ => ⟨rfl, by simp, ?_, ?_, ?_⟩⟩
        · simp; exact h2
        · intro _; rw [← hz]; exact hg.2 out
        · intro h; simp at h
    · rw [if_neg h2]
      refine ⟨_, chunks_answer [(lit "Content-Type", lit "application/json")] out [], fun h => absurd h h0, fun _ => ⟨rfl, by simp, ?_, ?_, ?_⟩⟩
      · constructor
        · intro h; exact absurd (List.mem_singleton.1 h) hne
        · intro h; exact absurd h h2
      · intro h; exact absurd (List.mem_singleton.1 h) hne
      · intro _; simp

end Verif.Http

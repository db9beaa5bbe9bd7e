import Verif.Http.Props

/-!
# What the wrapped writer lets handlers do (http/mux.go L20-80, http/server.go L44-64)

The writer of `net/http` can be flushed, and over HTTP/1 the connection can be taken over (`Hijack`, which websockets need). `Server` wraps it in a `response`,
or in a `responseHijacker` if it can be hijacked; `Handle` wraps it again. Here: any number of such layers above a writer of `net/http`, which is modelled as
documented: what is written is kept in a buffer, which is sent when it is flushed, when it is too full or when the handler ends; after `Hijack`, the writer does nothing any more
and what goes to the client is what the handler writes to the connection. Headers other than the status, informational codes and HEAD are not modelled here; bytes that
are in the buffer at a `Hijack` are lost.
-/
set_option autoImplicit false
namespace Verif.Http.Wrapped
open Verif.Http

/-- What a handler does with its writer, and with the connection it may have got from it. -/
inductive Op where
  | header (code : Int)
  | write (b : Bytes)
  /-- `w.(http.Flusher).Flush()`, or `http.NewResponseController(w).Flush()` -/
  | flush
  /-- `w.(http.Hijacker).Hijack()` -/
  | hijack
  /-- writing to the connection -/
  | raw (b : Bytes)
deriving DecidableEq

/-- What it is told: `unsupported` is a writer that has no such method. -/
inductive Ret where
  | done | refused | unsupported
deriving DecidableEq

/-- What the client has received: a status, bytes of the body, and what was written to the connection. -/
structure Wire where
  head : Option Int := none
  body : Bytes := []
  raw : Bytes := []
deriving DecidableEq

/-- The writer of `net/http` of one request: the status, the bytes in the buffer, whether it was hijacked. http/server.go L54-57. -/
structure Net where
  status : Option Int := none
  pending : Bytes := []
  hijacked : Bool := false
  seen : Wire := {}
deriving DecidableEq

/-- A server of `net/http`: whether connections can be hijacked (not with HTTP/2), and how many bytes a buffer that holds these sends. -/
structure Base where
  canHijack : Bool
  spill : Bytes → Nat
  /-- the buffer has room for 2048 bytes -/
  small : ∀ b : Bytes, b.length ≤ 2048 → spill b = 0

/-- Sending the status and the first `n` bytes. -/
def Net.send (s : Net) (n : Nat) : Net := { s with seen := { s.seen with head := s.status, body := s.seen.body ++ s.pending.take n }, pending := s.pending.drop n }

/-- The status is 200 if none was set. -/
def Net.started (s : Net) : Net := { s with status := some (s.status.getD 200) }

/-- net/http's writer, as documented. http/mux.go L67, L74, L79. -/
def Net.step (B : Base) (s : Net) : Op → Net × Ret
  | .header c => if s.hijacked ∨ s.status ≠ none then (s, .done) else ({ s with status := some c }, .done)
  | .write b =>
    if s.hijacked then (s, .refused)
    else if bodyAllowed (s.status.getD 200) then
      let p := s.pending ++ b
      if B.spill p = 0 then ({ s.started with pending := p }, .done) else (({ s.started with pending := p } : Net).send (B.spill p), .done)
    else (s.started, .refused)
  | .flush => if s.hijacked then (s, .done) else (s.started.send s.pending.length, .done)
  | .hijack =>
    if B.canHijack = false then (s, .unsupported)
    else if s.hijacked then (s, .refused) else ({ s with hijacked := true, pending := [], seen := { s.seen with head := s.status } }, .done)
  | .raw b => if s.hijacked then ({ s with seen := { s.seen with raw := s.seen.raw ++ b } }, .done) else (s, .refused)

/-- The handler returned. -/
def Net.finish (s : Net) : Wire := if s.hijacked then s.seen else (s.started.send s.pending.length).seen

/-- Layers of `response` or `responseHijacker` (http/mux.go L48-80), by the codes they recorded, the outermost first. `response` has the methods of
`http.ResponseWriter`, which it embeds, and `responseHijacker` has `Hijack` besides; neither has `Flush`, nor `Unwrap`. -/
def step (B : Base) : List Int → Net → Op → List Int × Net × Ret
  | [], s, o => ([], s.step B o)
  | k :: ks, s, .header c => if k ≠ 0 then (k :: ks, s, .done) else let r := step B ks s (.header c); (c :: r.1, r.2)
  | k :: ks, s, .write b => let r := step B ks s (.write b); ((if k = 0 then 200 else k) :: r.1, r.2)
  | k :: ks, s, .flush => (k :: ks, s, .unsupported)
  | k :: ks, s, .hijack => let r := step B ks s .hijack; (k :: r.1, r.2)
  | k :: ks, s, .raw b => let r := step B ks s (.raw b); (k :: r.1, r.2)

/-- What a handler is told, call by call, and where it gets to. -/
def run (B : Base) : List Int → Net → List Op → List Ret × List Int × Net
  | ks, s, [] => ([], ks, s)
  | ks, s, o :: l => let r := step B ks s o; let q := run B r.1 r.2.1 l; (r.2.2 :: q.1, q.2)

/-- A request through `n` layers: a server has one for all requests (http/server.go L49-57), and one more for paths registered with `Handle` (http/mux.go L26-33). -/
def request (B : Base) (n : Nat) (ops : List Op) : List Ret × List Int × Net := run B (List.replicate n 0) {} ops

/-! ### the spec -/

/-- Codes that are no informational ones. -/
def Final (ops : List Op) : Prop := ∀ c, .header c ∈ ops → 200 ≤ c ∧ c ≤ 999

def raws : List Op → Bytes
  | [] => []
  | .raw b :: l => b ++ raws l
  | _ :: l => raws l

def written : List Op → Nat
  | [] => 0
  | .write b :: l => b.length + written l
  | _ :: l => written l

/-! ### proofs -/

theorem step_length (B : Base) (o : Op) : ∀ (ks : List Int) (s : Net), (step B ks s o).1.length = ks.length := by
  intro ks
  induction ks with
  | nil => intro s; rfl
  | cons k ks ih =>
    intro s
    cases o <;> simp only [step, List.length_cons, ih]
    split <;> simp [ih]

/-- The layers recorded something exactly if there is a status. -/
def Agree (ks : List Int) (s : Net) : Prop := s.hijacked = true ∨ ∀ k ∈ ks, (k ≠ 0 ↔ s.status ≠ none)

theorem step_net (B : Base) (o : Op) (hf : o ≠ .flush) : ∀ (ks : List Int) (s : Net), Agree ks s → (step B ks s o).2 = s.step B o := by
  intro ks
  induction ks with
  | nil => intro s _; rfl
  | cons k ks ih =>
    intro s ha
    have ha' : Agree ks s := ha.imp id (fun h k hk => h k (List.mem_cons_of_mem _ hk))
    cases o with
    | flush => exact absurd rfl hf
    | write b => simp only [step]; exact ih s ha'
    | hijack => simp only [step]; exact ih s ha'
    | raw b => simp only [step]; exact ih s ha'
    | header c =>
      simp only [step]
      split
      · next hk =>
        have : s.hijacked = true ∨ s.status ≠ none := ha.imp id (fun h => (h k (by simp)).1 hk)
        simp only [Net.step, if_pos this]
      · exact ih s ha'

theorem step_agree (B : Base) (o : Op) (hf : o ≠ .flush) (hc : ∀ c, o = .header c → c ≠ 0) : ∀ (ks : List Int) (s : Net), Agree ks s → Agree (step B ks s o).1 (step B ks s o).2.1 := by
  intro ks s ha
  rw [step_net B o hf ks s ha]
  rcases ha with ha | ha
  · left
    cases o <;> simp only [Net.step, ha, true_or, if_true]
    split <;> exact ha
  · by_cases hj : s.hijacked = true
    · left
      cases o <;> simp only [Net.step, hj, true_or, if_true]
      split <;> exact hj
    · cases o with
      | flush => exact absurd rfl hf
      | hijack =>
        simp only [Net.step]
        split
        · right
          have : ∀ ks : List Int, (step B ks s .hijack).1 = ks := by
            intro ks; induction ks with
            | nil => rfl
            | cons k ks ih => simp only [step, ih]
          rw [this]; exact ha
        · left; rfl
      | raw b =>
        right
        have : ∀ ks : List Int, (step B ks s (.raw b)).1 = ks := by
          intro ks; induction ks with
          | nil => rfl
          | cons k ks ih => simp only [step, ih]
        rw [this]
        simp only [Net.step, if_neg hj]
        exact ha
      | header c =>
        right
        have hc0 := hc c rfl
        by_cases hs : s.status = none
        · have : ¬ (s.hijacked = true ∨ s.status ≠ none) := by simp [hj, hs]
          simp only [Net.step, if_neg this]
          have : ∀ ks : List Int, (∀ k ∈ ks, (k ≠ 0 ↔ s.status ≠ none)) → ∀ k ∈ (step B ks s (.header c)).1, k ≠ 0 := by
            intro ks; induction ks with
            | nil => intro _ k hk; cases hk
            | cons k ks ih =>
              intro hks
              have hk0 : ¬ (k ≠ 0) := fun h => (hks k (by simp)).1 h hs
              simp only [step, if_neg hk0]
              intro k' hk'
              rcases List.mem_cons.1 hk' with rfl | hk'
              · exact hc0
              · exact ih (fun x hx => hks x (List.mem_cons_of_mem _ hx)) k' hk'
          intro k hk
          exact ⟨fun _ => by simp, fun _ => this ks ha k hk⟩
        · have : s.hijacked = true ∨ s.status ≠ none := .inr hs
          simp only [Net.step, if_pos this]
          have : ∀ ks : List Int, (∀ k ∈ ks, (k ≠ 0 ↔ s.status ≠ none)) → (step B ks s (.header c)).1 = ks := by
            intro ks hks
            cases ks with
            | nil => rfl
            | cons k ks =>
              have hk0 : k ≠ 0 := (hks k (by simp)).2 hs
              simp only [step, if_pos hk0]
          rw [this ks ha]; exact ha
      | write b =>
        right
        have h1 : ∀ ks : List Int, ∀ k ∈ (step B ks s (.write b)).1, k ≠ 0 := by
          intro ks; induction ks with
          | nil => intro k hk; cases hk
          | cons k ks ih =>
            simp only [step]
            intro k' hk'
            rcases List.mem_cons.1 hk' with rfl | hk'
            · split <;> simp_all
            · exact ih k' hk'
        have h2 : (s.step B (.write b)).1.status ≠ none := by
          simp only [Net.step, if_neg hj]
          split
          · split <;> simp [Net.started, Net.send]
          · simp [Net.started]
        intro k hk
        exact ⟨fun _ => h2, fun _ => h1 ks k hk⟩

/-- C172: as long as a handler does not flush, it does not notice the layers: it is told the same, and the client sees the same, at every moment and at the end. -/
theorem C172_transparent_partial (B : Base) (ops : List Op) (hf : .flush ∉ ops) (hc : Final ops) (n : Nat) :
    (request B n ops).1 = (request B 0 ops).1 ∧ (request B n ops).2.2 = (request B 0 ops).2.2 := by
  have key : ∀ (ops : List Op), .flush ∉ ops → Final ops → ∀ ks s, Agree ks s → (run B ks s ops).1 = (run B [] s ops).1 ∧ (run B ks s ops).2.2 = (run B [] s ops).2.2 := by
    intro ops
    induction ops with
    | nil => intro _ _ ks s _; exact ⟨rfl, rfl⟩
    | cons o l ih =>
      intro hf hc ks s ha
      have hof : o ≠ .flush := fun h => hf (by simp [h])
      have h1 := step_net B o hof ks s ha
      have h2 := step_agree B o hof (fun c h => by have := hc c (by simp [h]); omega) ks s ha
      rw [h1] at h2
      have := ih (fun h => hf (by simp [h])) (fun c h => hc c (by simp [h])) _ _ h2
      simp only [run, h1, this, step]
      exact ⟨trivial, trivial⟩
  exact key ops hf hc _ _ (.inr (fun k hk => by simp [List.eq_of_mem_replicate hk]))

theorem raw_only (B : Base) (ops : List Op) : ∀ (ks : List Int) (s : Net), s.hijacked = true →
    (run B ks s ops).2.2.hijacked = true ∧ (run B ks s ops).2.2.seen = { s.seen with raw := s.seen.raw ++ raws ops } := by
  have one : ∀ (o : Op) (ks : List Int) (s : Net), s.hijacked = true → (step B ks s o).2.1.hijacked = true ∧ (step B ks s o).2.1.seen = { s.seen with raw := s.seen.raw ++ raws [o] } := by
    intro o ks
    induction ks with
    | nil =>
      intro s h
      cases o <;> simp only [step, Net.step, h, true_or, if_true, raws, List.append_nil, and_self]
      all_goals split <;> simp [h]
    | cons k ks ih =>
      intro s h
      cases o with
      | header c =>
        simp only [step]
        split
        · simp [h, raws]
        · exact ih s h
      | flush => simp [step, h, raws]
      | write b => simp only [step]; exact ih s h
      | hijack => simp only [step]; exact ih s h
      | raw b => simp only [step]; exact ih s h
  induction ops with
  | nil => intro ks s h; simp [run, h, raws]
  | cons o l ih =>
    intro ks s h
    have h1 := one o ks s h
    have h2 := ih (step B ks s o).1 (step B ks s o).2.1 h1.1
    refine ⟨h2.1, ?_⟩
    show (run B (step B ks s o).1 (step B ks s o).2.1 l).2.2.seen = _
    rw [h2.2, h1.2]
    cases o <;> simp [raws]

/-- C172: a handler can take the connection over, through any number of layers, if `net/http` lets it; from then on the client sees exactly what it writes to the connection, whatever it does with the writer. -/
theorem C172_hijack (B : Base) (n : Nat) (ops : List Op) :
    (B.canHijack = true → (request B n (.hijack :: ops)).1.head? = some .done ∧ (request B n (.hijack :: ops)).2.2.finish = { raw := raws ops }) ∧
    (B.canHijack = false → (request B n (.hijack :: ops)).1.head? = some .unsupported) := by
  have hs : ∀ n, step B (List.replicate n 0) {} .hijack = (List.replicate n 0, ({} : Net).step B .hijack) := by
    intro n
    induction n with
    | zero => rfl
    | succ n ih => simp only [List.replicate_succ, step, ih]
  constructor
  · intro hb
    have h1 : ({} : Net).step B .hijack = ({ hijacked := true }, .done) := by simp [Net.step, hb]
    simp only [request, run, hs, h1, List.head?_cons, true_and]
    have h2 := raw_only B ops (List.replicate n 0) { hijacked := true } rfl
    simp only [Net.finish, h2.1, if_true, h2.2]
    simp
  · intro hb
    have h1 : ({} : Net).step B .hijack = ({}, .unsupported) := by simp [Net.step, hb]
    simp [request, run, hs, h1]

/-- C172, violated: a connection that is taken over, as every websocket, is measured with the code 0 by all layers, whatever status line the handler wrote to it, if it does not
touch the writer any more; if it does, with a code no client was sent. -/
theorem C172_code_violated (B : Base) (hb : B.canHijack = true) (n : Nat) (bs : List Bytes) (c : Int) :
    (request B n (.hijack :: bs.map .raw)).2.1 = List.replicate n 0 ∧
    (request B n [.hijack, .header c]).2.1 = List.replicate n c ∧ (request B n [.hijack, .header c]).2.2.finish = {} := by
  have hs : ∀ n, step B (List.replicate n 0) {} .hijack = (List.replicate n 0, ({} : Net).step B .hijack) := by
    intro n
    induction n with
    | zero => rfl
    | succ n ih => simp only [List.replicate_succ, step, ih]
  have h1 : ({} : Net).step B .hijack = ({ hijacked := true }, .done) := by simp [Net.step, hb]
  refine ⟨?_, ?_, ?_⟩
  · have : ∀ (bs : List Bytes) (s : Net), (run B (List.replicate n 0) s (bs.map .raw)).2.1 = List.replicate n 0 := by
      intro bs
      have st : ∀ (b : Bytes) (ks : List Int) (s : Net), (step B ks s (.raw b)).1 = ks := by
        intro b ks; induction ks with
        | nil => intro s; rfl
        | cons k ks ih => intro s; simp only [step, ih]
      induction bs with
      | nil => intro s; rfl
      | cons b bs ih => intro s; simp only [List.map_cons, run, st]; exact ih _
    simp only [request, run, hs, h1]
    exact this bs _
  · have : ∀ n, (step B (List.replicate n 0) { hijacked := true } (.header c)).1 = List.replicate n c := by
      intro n; induction n with
      | zero => rfl
      | succ n ih => simp only [List.replicate_succ, step, ne_eq, not_true_eq_false, if_false, ih]
    simp only [request, run, hs, h1, this]
  · have h2 := raw_only B [.header c] (List.replicate n 0) { hijacked := true } rfl
    simp only [request]
    show (run B (step B (List.replicate n 0) {} .hijack).1 (step B (List.replicate n 0) {} .hijack).2.1 [.header c]).2.2.finish = {}
    rw [hs, h1]
    simp only [Net.finish, h2.1, if_true, h2.2]
    simp [raws]

/-- C172: without layers, flushing sends what was written. -/
theorem C172_direct (B : Base) (b : Bytes) (hb : b.length ≤ 2048) : (request B 0 [.write b, .flush]).1 = [.done, .done] ∧ (request B 0 [.write b, .flush]).2.2.seen = ⟨some 200, b, []⟩ := by
  have hs := B.small b hb
  simp [request, run, step, Net.step, bodyAllowed, hs, Net.started, Net.send]

/-- C172, violated: through a layer, nothing is sent before the handler ends unless it writes more than the buffer holds or takes the connection over; flushing is not possible. -/
theorem C172_flush_violated (B : Base) (n : Nat) (ops : List Op) (hj : .hijack ∉ ops) (hw : written ops ≤ 2048) :
    (request B (n + 1) ops).2.2.seen = {} ∧ ∀ i : Nat, ops[i]? = some .flush → (request B (n + 1) ops).1[i]? = some .unsupported := by
  -- a step sends nothing
  have one : ∀ (o : Op) (ks : List Int) (s : Net), o ≠ .hijack → (ks ≠ [] ∨ o ≠ .flush) → s.hijacked = false → s.pending.length + written [o] ≤ 2048 →
      (step B ks s o).2.1.seen = s.seen ∧ (step B ks s o).2.1.hijacked = false ∧ (step B ks s o).2.1.pending.length ≤ s.pending.length + written [o] := by
    intro o ks
    induction ks with
    | nil =>
      intro s h1 h2 h3 h4
      cases o with
      | hijack => exact absurd rfl h1
      | flush => rcases h2 with h | h <;> exact absurd rfl h
      | header c => simp only [step, Net.step]; split <;> simp [h3]
      | raw b => simp [step, Net.step, h3]
      | write b =>
        simp only [written, Nat.add_zero] at h4 ⊢
        have hsp := B.small (s.pending ++ b) (by simpa using h4)
        simp only [step, Net.step, h3, Bool.false_eq_true, if_false, hsp, if_true]
        split
        · simp [Net.started, h3]
        · simp [Net.started, h3]
    | cons k ks ih =>
      intro s h1 h2 h3 h4
      cases o with
      | hijack => exact absurd rfl h1
      | flush => simp [step, h3]
      | header c =>
        simp only [step]
        split
        · simp [h3]
        · exact ih s h1 (.inr (by simp)) h3 h4
      | raw b => simp only [step]; exact ih s h1 (.inr (by simp)) h3 h4
      | write b => simp only [step]; exact ih s h1 (.inr (by simp)) h3 h4
  have wcons : ∀ (o : Op) (l : List Op), written (o :: l) = written [o] + written l := by
    intro o l; cases o <;> simp [written]
  have key : ∀ (ops : List Op), .hijack ∉ ops → ∀ (ks : List Int) (s : Net), ks ≠ [] → s.hijacked = false → s.pending.length + written ops ≤ 2048 →
      (run B ks s ops).2.2.seen = s.seen ∧ ∀ i : Nat, ops[i]? = some .flush → (run B ks s ops).1[i]? = some .unsupported := by
    intro ops
    induction ops with
    | nil => intro _ ks s _ _ _; exact ⟨rfl, fun i h => by simp at h⟩
    | cons o l ih =>
      intro hj ks s hk h3 h4
      rw [wcons] at h4
      have h := one o ks s (fun h => hj (by simp [h])) (.inl hk) h3 (by omega)
      have hk' : (step B ks s o).1 ≠ [] := by
        intro he
        have := step_length B o ks s
        rw [he] at this
        exact hk (List.eq_nil_of_length_eq_zero (by simpa using this.symm))
      have h' := ih (fun h => hj (by simp [h])) _ _ hk' h.2.1 (by omega)
      refine ⟨h'.1.trans h.1, fun i hi => ?_⟩
      cases i with
      | zero =>
        simp only [List.getElem?_cons_zero, Option.some.injEq] at hi
        subst hi
        cases ks with
        | nil => exact absurd rfl hk
        | cons k ks => rfl
      | succ i => exact h'.2 i (by simpa using hi)
  exact key ops hj (List.replicate (n + 1) 0) {} (by simp) rfl (by simpa using hw)

/-- A server over HTTP/1 that sends its buffer when it holds more than 2048 bytes. -/
def http1 : Base := ⟨true, fun b => if b.length ≤ 2048 then 0 else b.length, fun b h => by simp [h]⟩

example : request http1 2 [.hijack, .raw [49, 48, 49], .write [1], .raw [2]] = ([.done, .done, .refused, .done], [200, 200], ⟨none, [], true, ⟨none, [], [49, 48, 49, 2]⟩⟩) := by decide +kernel

/-- An event stream: sent bit by bit without the wrapper, and all at the end with it. -/
example : (request http1 0 [.header 200, .write [1], .flush, .write [2]]).2.2.seen = ⟨some 200, [1], []⟩ ∧
    (request http1 1 [.header 200, .write [1], .flush, .write [2]]).2.2.seen = {} ∧
    (request http1 1 [.header 200, .write [1], .flush, .write [2]]).2.2.finish = ⟨some 200, [1, 2], []⟩ := by decide +kernel

example : (request http1 1 [.header 404, .header 200, .write [1]]).2.2.finish = ⟨some 404, [1], []⟩ := by decide +kernel

/-- The codes from 200 to 999. -/
example : Final [.header 200, .header 999] ∧ ¬ Final [.header 199] ∧ ¬ Final [.header 1000] := by
  refine ⟨?_, fun h => absurd (h 199 (by simp)).1 (by decide), fun h => absurd (h 1000 (by simp)).2 (by decide)⟩
  intro c hc
  simp only [List.mem_cons, Op.header.injEq, List.not_mem_nil, or_false] at hc
  rcases hc with rfl | rfl <;> decide

/-- What was sent is not sent again. -/
example : (request http1 0 [.write [1], .flush, .write [2]]).2.2.finish = ⟨some 200, [1, 2], []⟩ ∧ (request http1 0 [.write [1], .flush, .write [2], .flush]).2.2.finish = ⟨some 200, [1, 2], []⟩ := by decide +kernel

end Verif.Http.Wrapped

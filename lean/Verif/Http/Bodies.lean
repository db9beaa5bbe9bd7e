import Verif.Http.ClientProps
/-!
# What the client does with response bodies (C165) (http/client.go)

`Client.Get`, `Post`, `Do` and `API` are modelled with what they do to the body of the response: it is read (`io.ReadAll`), or closed. The body of a
response is a stream: the connection may break before its end.

`net/http`'s transport is modelled as documented: a connection is used again once the body of its response is read to the end, or closed; a
response without a body needs neither. Redirects, http/2 and limits of the pool are not modelled.
-/
set_option autoImplicit false
namespace Verif.Http.Bodies
open Verif.Strconv Verif.Enc Verif.Api Verif.Http

variable {X : Ext} [DecidableEq X.F] [DecidableEq X.T]

/-- A response whose body is still to be read: what arrives, and whether the connection breaks before the end. http/client.go L63. -/
structure Stream where
  status : Int
  headers : List (Str × Str) := []
  bytes : Bytes
  breaks : Bool := false
deriving DecidableEq

/-- The response, once read. http/client.go L63. -/
def Stream.resp (s : Stream) : Resp := ⟨s.status, s.headers, s.bytes⟩

/-- Whether there is a body. http/client.go L63, as documented in `net/http`. -/
def Stream.hasBody (s : Stream) : Bool := bodyAllowed s.status && (!s.bytes.isEmpty || s.breaks)

/-- What a call does: a response comes, its body is read until it ends or fails, or it is closed. http/client.go L35-36, L63, L116-120. -/
inductive Act where
  | answer
  | read
  | close
deriving DecidableEq

/-- `Client.Do` (http/client.go L62-73). The response is also returned with an error, which no caller looks at. -/
def doS (N : NetExt) (res : Option Stream) : List Act × Done Stream :=
  match res with
  | none => ([], .err (Errors.newErrorf () () 5 (N.sendMsg []) [.leaf 6 (N.sendMsg [])]))
  | some s => ([.answer], if s.status = 200 ∨ s.status = 204 then .ok s else .err (.httpErr s.status (some (.leaf 7 (N.codeText s.status)))))

/-- `Client.Get` and `Client.Post` (http/client.go L25-39, L45-60): what comes back, and the error. `req` says whether the request can be made; the
body of a response of `net/http`'s client is never nil. -/
def fetch (N : NetExt) (req : Bool) (res : Option Stream) : List Act × (Bytes × Option Error) :=
  if req then
    match doS N res with
    | (a, .ok s) => (a ++ [.read, .close], s.bytes, if s.breaks then some (.leaf 16 (N.readMsg s.bytes)) else none)
    | (a, .err e) => (a, [], some e)
    | (a, .panic) => (a, [], none)
  else ([], [], some (Errors.newErrorf () () 17 (N.sendMsg []) [.leaf 18 (N.sendMsg [])]))

/-- `Client.API` (http/client.go L75-126), as `clientAPI`, with what it does to the body. -/
def api (N : NetExt) (U : Str → Option Str) (O : Order) (fs : Fields) (net : Str → Bytes → Option Stream) (obj : FVals X fs) :
    List Act × (FVals X fs × Done Unit) :=
  match newHandler (X := X) U (.ptr (.struct fs) (some obj)) with
  | none => ([], obj, .err (Errors.newErrorf () () 8 (N.sendMsg []) []))
  | some h =>
    match send O fs obj h.ins [] with
    | .err => ([], obj, .err (Errors.newErrorf () () 9 (N.sendMsg []) []))
    | .panic => ([], obj, .panic)
    | .ok d =>
      match encode (.map d) with
      | .error _ => ([], obj, .err (Errors.newErrorf () () 10 (N.sendMsg []) [.leaf 11 (N.sendMsg [])]))
      | .ok s =>
        match h.urls with
        | [] => ([], obj, .panic)
        | u :: _ =>
          match doS N (net u (utf8 s)) with
          | (a, .panic) => (a, obj, .panic)
          | (a, .err e) => (a, obj, .err (Errors.newErrorf () () 12 (N.sendMsg []) [e]))
          | (a, .ok r) =>
            if r.status = 204 then (a, obj, .ok ())
            else if r.breaks then (a ++ [.read], obj, .err (Errors.newErrorf () () 13 (N.sendMsg []) [.leaf 14 (N.sendMsg [])]))
            else
              match readFrom (N.text r.bytes) with
              | none => (a ++ [.read], obj, .err (Errors.newErrorf () () 13 (N.sendMsg []) [.leaf 14 (N.sendMsg [])]))
              | some d =>
                let q := recvObj O fs d h.outs obj
                (a ++ [.read, .close], q.1, match q.2 with | .ok => .ok () | .err => .err (Errors.newErrorf () () 15 (N.sendMsg []) []) | .panic => .panic)

/-- If no connection breaks, it is the `clientAPI` of the model. -/
theorem api_eq (N : NetExt) (U : Str → Option Str) (O : Order) (fs : Fields) (net : Str → Bytes → Option Stream) (obj : FVals X fs)
    (hb : ∀ u b s, net u b = some s → s.breaks = false) : (api N U O fs net obj).2 = clientAPI N U O fs (fun u b => (net u b).map Stream.resp) obj := by
  unfold api clientAPI
  cases newHandler (X := X) U (.ptr (.struct fs) (some obj)) with
  | none => rfl
  | some h =>
    simp only
    cases send O fs obj h.ins [] with
    | err => rfl
    | panic => rfl
    | ok d =>
      simp only
      cases encode (.map d) with
      | error p => rfl
      | ok s =>
        simp only
        cases h.urls with
        | nil => rfl
        | cons u us =>
          simp only
          cases hn : net u (utf8 s) with
          | none => rfl
          | some r =>
            have hbr := hb _ _ _ hn
            simp only [doS, clientDo, Option.map, Stream.resp]
            by_cases h1 : r.status = 200 ∨ r.status = 204
            · simp only [h1, if_true, hbr]
              by_cases h2 : r.status = 204
              · simp only [h2, if_true]
              · simp only [h2, if_false, Bool.false_eq_true]
                cases readFrom (X := X) (N.text r.bytes) <;> rfl
            · simp only [h1, if_false]

/-- A call of the client: what it does, and the response that came, if one did. -/
inductive Made : List Act → Option Stream → Prop where
  | fetch (N : NetExt) (req : Bool) (res : Option Stream) : Made (fetch N req res).1 (if req then res else none)
  | api {X : Ext} [DecidableEq X.F] [DecidableEq X.T] (N : NetExt) (U : Str → Option Str) (O : Order) (fs : Fields) (obj : FVals X fs) (res : Option Stream) (sent : Bool)
      (hs : sent = true ↔ .answer ∈ (Bodies.api N U O fs (fun _ _ => res) obj).1) : Made (Bodies.api N U O fs (fun _ _ => res) obj).1 (if sent then res else none)

/-- The body of the response is left: it is there, and was neither read nor closed. -/
def Left (acts : List Act) (res : Option Stream) : Prop := ∃ s, res = some s ∧ s.hasBody = true ∧ .read ∉ acts ∧ .close ∉ acts

instance (acts : List Act) (res : Option Stream) : Decidable (Left acts res) :=
  match res with
  | none => .isFalse fun ⟨_, h, _⟩ => (nomatch h)
  | some s => if h : s.hasBody = true ∧ .read ∉ acts ∧ .close ∉ acts then .isTrue ⟨s, rfl, h⟩ else .isFalse fun ⟨t, ht, h2⟩ => h (by injection ht with ht; subst ht; exact h2)

/-- An answer that the client takes for an error. -/
def Failing (s : Stream) : Prop := s.status ≠ 200 ∧ s.status ≠ 204

/-- The response is an error with a body. -/
def errBody : Option Stream → Bool
  | none => false
  | some s => s.status != 200 && s.status != 204 && s.hasBody

theorem errBody_iff (res : Option Stream) : errBody res = true ↔ ∃ s, res = some s ∧ Failing s ∧ s.hasBody = true := by
  cases res with
  | none => simp [errBody]
  | some s => simp [errBody, Failing, and_assoc]

/-- What the calls do: nothing without an answer; the body of an answer 200 is read, and closed last, if at all; that of a failing one is left alone. -/
theorem made_acts (acts : List Act) (res : Option Stream) (h : Made acts res) :
    match res with
    | none => acts = []
    | some s => (Failing s → acts = [.answer]) ∧ (s.status = 200 → acts = [.answer, .read] ∨ acts = [.answer, .read, .close]) ∧
        (s.status = 204 → acts = [.answer] ∨ acts = [.answer, .read, .close]) := by
  cases h with
  | fetch N req res =>
    cases req with
    | false => rfl
    | true =>
      cases res with
      | none => rfl
      | some s =>
        simp only [fetch, doS, if_true, Failing]
        by_cases h1 : s.status = 200 ∨ s.status = 204
        · simp only [h1, if_true]
          refine ⟨fun h => by omega, fun _ => .inr rfl, fun _ => .inr rfl⟩
        · simp only [h1, if_false]
          refine ⟨fun _ => trivial, fun h => by omega, fun h => by omega⟩
  | api N U O fs obj res sent hs =>
    have key : (Bodies.api N U O fs (fun _ _ => res) obj).1 = [] ∨ ∃ s, res = some s ∧ .answer ∈ (Bodies.api N U O fs (fun _ _ => res) obj).1 ∧
        (Failing s → (Bodies.api N U O fs (fun _ _ => res) obj).1 = [.answer]) ∧
        (s.status = 200 → (Bodies.api N U O fs (fun _ _ => res) obj).1 = [.answer, .read] ∨ (Bodies.api N U O fs (fun _ _ => res) obj).1 = [.answer, .read, .close]) ∧
        (s.status = 204 → (Bodies.api N U O fs (fun _ _ => res) obj).1 = [.answer] ∨ (Bodies.api N U O fs (fun _ _ => res) obj).1 = [.answer, .read, .close]) := by
      unfold Bodies.api
      split
      · exact .inl rfl
      · split
        · exact .inl rfl
        · exact .inl rfl
        · split
          · exact .inl rfl
          · split
            · exact .inl rfl
            · cases res with
              | none => exact .inl rfl
              | some s =>
                refine .inr ⟨s, rfl, ?_⟩
                simp only [doS, Failing]
                by_cases h1 : s.status = 200 ∨ s.status = 204
                · simp only [h1, if_true]
                  by_cases h2 : s.status = 204
                  · simp only [h2, if_true]; simp
                  · simp only [h2, if_false]
                    have h3 : s.status = 200 := by omega
                    cases s.breaks with
                    | true => simp [h3]
                    | false =>
                      simp only [Bool.false_eq_true, if_false]
                      split <;> simp [h3]
                · simp only [h1, if_false]
                  refine ⟨by simp, fun _ => trivial, fun h => by omega, fun h => by omega⟩
    rcases key with h | ⟨s, rfl, ha, hk⟩
    · have : sent = false := by
        cases sent with
        | false => rfl
        | true => have := hs.1 rfl; rw [h] at this; cases this
      subst this; exact h
    · have : sent = true := hs.2 ha
      subst this; exact hk

/-- C165: `Get` and `Post` return no error exactly if the request was made and sent, the status was 200 or 204, and the body was read to its end; then
they return that body. -/
theorem C165_fetch (N : NetExt) (req : Bool) (res : Option Stream) :
    (fetch N req res).2.2 = none ↔ req = true ∧ ∃ s, res = some s ∧ (s.status = 200 ∨ s.status = 204) ∧ s.breaks = false ∧ (fetch N req res).2.1 = s.bytes := by
  cases req with
  | false => simp [fetch]
  | true =>
    cases res with
    | none => simp [fetch, doS]
    | some s =>
      by_cases h : s.status = 200 ∨ s.status = 204
      · cases hb : s.breaks <;> simp [fetch, doS, h, hb]
      · simp [fetch, doS, h]

/-- C165: the body of a response is left exactly if the status is neither 200 nor 204 and there is one. -/
theorem C165_left_iff (acts : List Act) (res : Option Stream) (h : Made acts res) : Left acts res ↔ ∃ s, res = some s ∧ Failing s ∧ s.hasBody = true := by
  have hm := made_acts acts res h
  constructor
  · rintro ⟨s, rfl, hb, hr, hc⟩
    refine ⟨s, rfl, ?_, hb⟩
    simp only at hm
    refine ⟨fun h2 => ?_, fun h2 => ?_⟩
    · rcases hm.2.1 h2 with h | h <;> (rw [h] at hr; simp at hr)
    · simp [Stream.hasBody, h2, bodyAllowed] at hb
  · rintro ⟨s, rfl, hf, hb⟩
    have := hm.1 hf
    exact ⟨s, rfl, hb, by rw [this]; simp, by rw [this]; simp⟩

/-- C165, what holds: a body that is read is the one that came, it is closed at most once, and not read after that. -/
theorem C165_order_partial (acts : List Act) (res : Option Stream) (h : Made acts res) : acts <+: [.answer, .read, .close] ∧ (acts = [] ↔ res = none) := by
  have hm := made_acts acts res h
  cases res with
  | none => simp only at hm; subst hm; simp
  | some s =>
    simp only at hm
    have : acts = [.answer] ∨ acts = [.answer, .read] ∨ acts = [.answer, .read, .close] := by
      by_cases h1 : s.status = 200
      · exact .inr (hm.2.1 h1)
      · by_cases h2 : s.status = 204
        · rcases hm.2.2 h2 with h | h
          · exact .inl h
          · exact .inr (.inr h)
        · exact .inl (hm.1 ⟨h1, h2⟩)
    rcases this with h | h | h <;> subst h <;> simp

/-- C165: `API` does not touch the body of an answer 204, which has none, nor the object. -/
theorem C165_no_content (N : NetExt) (U : Str → Option Str) (O : Order) (fs : Fields) (s : Stream) (hs : s.status = 204) (obj : FVals X fs) :
    .read ∉ (api N U O fs (fun _ _ => some s) obj).1 ∧ .close ∉ (api N U O fs (fun _ _ => some s) obj).1 ∧ (api N U O fs (fun _ _ => some s) obj).2.1 = obj := by
  unfold api
  split
  · simp
  · split
    · simp
    · simp
    · split
      · simp
      · split
        · simp
        · simp [doS, hs]

/-! ### the connections -/

/-- The connections of the transport: those that can be used again, those whose response is left, and how many were made. -/
structure Pool where
  idle : Nat := 0
  held : Nat := 0
  made : Nat := 0
deriving DecidableEq

/-- A call that is answered takes an idle connection, or makes one; afterwards the connection is idle, gone if it broke, or held if the response is left. -/
def Pool.call (p : Pool) (acts : List Act) (res : Option Stream) : Pool :=
  match res with
  | none => p
  | some s =>
    let p := if p.idle = 0 then { p with made := p.made + 1 } else { p with idle := p.idle - 1 }
    if Left acts res then { p with held := p.held + 1 } else if s.breaks then p else { p with idle := p.idle + 1 }

/-- Calls, one after the other. -/
def Pool.calls (p : Pool) : List (List Act × Option Stream) → Pool
  | [] => p
  | (a, r) :: l => (p.call a r).calls l

/-- The calls that are answered with an error that has a body. -/
def failures (l : List (List Act × Option Stream)) : Nat := (l.filter fun x => errBody x.2).length

/-- C165: after any calls as many connections are held as there were answers other than 200 and 204 with a body. -/
theorem C165_held (l : List (List Act × Option Stream)) (hl : ∀ x ∈ l, Made x.1 x.2) (p : Pool) : (p.calls l).held = p.held + failures l := by
  induction l generalizing p with
  | nil => rfl
  | cons x l ih =>
    obtain ⟨a, r⟩ := x
    have hx := C165_left_iff a r (hl (a, r) (by simp))
    simp only [Pool.calls]
    rw [ih (fun x hx => hl x (by simp [hx]))]
    have hh : (p.call a r).held = p.held + if Left a r then 1 else 0 := by
      cases r with
      | none => simp [Pool.call, Left]
      | some s =>
        simp only [Pool.call]
        by_cases h1 : Left a (some s)
        · simp only [h1, if_true]; split <;> rfl
        · simp only [h1, if_false]; split <;> split <;> rfl
    rw [hh]
    rw [← errBody_iff] at hx
    simp only [failures, List.filter_cons]
    by_cases h1 : Left a r
    · simp [h1, hx.1 h1]; omega
    · have : errBody r = false := by
        cases h2 : errBody r with
        | false => rfl
        | true => exact absurd (hx.2 h2) h1
      simp [h1, this]

/-- C165, what holds: if every answer is 200 or 204, or has no body, then nothing is held; and if no connection breaks then one is enough. -/
theorem C165_one_partial (l : List (List Act × Option Stream)) (hl : ∀ x ∈ l, Made x.1 x.2) (hok : ∀ x ∈ l, ∀ s, x.2 = some s → ¬ Failing s ∨ s.hasBody = false) :
    (({} : Pool).calls l).held = 0 ∧ ((∀ x ∈ l, ∀ s, x.2 = some s → s.breaks = false) → (({} : Pool).calls l).made ≤ 1) := by
  refine ⟨?_, fun hb => ?_⟩
  · rw [C165_held l hl]
    simp only [failures, Nat.zero_add, List.length_eq_zero_iff, List.filter_eq_nil_iff, errBody_iff]
    rintro x hx ⟨s, hs, hf, hbody⟩
    rcases hok x hx s hs with h | h
    · exact h hf
    · rw [h] at hbody; cases hbody
  · have gen : ∀ (l : List (List Act × Option Stream)), (∀ x ∈ l, Made x.1 x.2) → (∀ x ∈ l, ∀ s, x.2 = some s → ¬ Failing s ∨ s.hasBody = false) →
        (∀ x ∈ l, ∀ s, x.2 = some s → s.breaks = false) → ∀ p : Pool, p.made = p.idle → p.made ≤ 1 → (p.calls l).made ≤ 1 := by
      intro l
      induction l with
      | nil => intro _ _ _ p _ h; exact h
      | cons x l ih =>
        intro hl hok hb p hp h1
        obtain ⟨a, r⟩ := x
        have hleft : ¬ Left a r := by
          rw [C165_left_iff a r (hl (a, r) (by simp))]
          rintro ⟨s, hs, hf, hbody⟩
          rcases hok (a, r) (by simp) s hs with h | h
          · exact h hf
          · rw [h] at hbody; cases hbody
        refine ih (fun x hx => hl x (by simp [hx])) (fun x hx => hok x (by simp [hx])) (fun x hx => hb x (by simp [hx])) _ ?_ ?_
        · cases r with
          | none => exact hp
          | some s =>
            have hbr := hb (a, some s) (by simp) s rfl
            simp only [Pool.call, hleft, if_false, hbr, Bool.false_eq_true]
            split <;> (simp only; omega)
        · cases r with
          | none => exact h1
          | some s =>
            have hbr := hb (a, some s) (by simp) s rfl
            simp only [Pool.call, hleft, if_false, hbr, Bool.false_eq_true]
            split <;> (simp only; omega)
    exact gen l hl hok hb {} rfl (by decide)

/-- C165 (negation): every call that is answered by an error with a body keeps a connection; a client that keeps asking uses up any number of them. -/
theorem C165_violated (N : NetExt) (n : Nat) (s : Stream) (hf : Failing s) (hb : s.hasBody = true) :
    (({} : Pool).calls (List.replicate n ((fetch N true (some s)).1, some s))).held = n ∧
    (({} : Pool).calls (List.replicate n ((fetch N true (some s)).1, some s))).made = n := by
  have hmade : Made (fetch N true (some s)).1 (some s) := .fetch N true (some s)
  have hleft : Left (fetch N true (some s)).1 (some s) := (C165_left_iff _ _ hmade).2 ⟨s, rfl, hf, hb⟩
  have gen : ∀ n (p : Pool), p.idle = 0 → (p.calls (List.replicate n ((fetch N true (some s)).1, some s))).held = p.held + n ∧
      (p.calls (List.replicate n ((fetch N true (some s)).1, some s))).made = p.made + n := by
    intro n
    induction n with
    | zero => intro p _; exact ⟨rfl, rfl⟩
    | succ n ih =>
      intro p hp
      simp only [List.replicate_succ, Pool.calls]
      have hc : p.call (fetch N true (some s)).1 (some s) = { p with made := p.made + 1, held := p.held + 1 } := by
        simp only [Pool.call, hp, if_true, hleft]
      rw [hc]
      obtain ⟨h1, h2⟩ := ih { p with made := p.made + 1, held := p.held + 1 } hp
      rw [h1, h2]
      simp only
      omega
  simpa using gen n {} rfl

/-- The client gets the response of a server of this package. -/
def ofResp (r : Resp) : Stream := ⟨r.status, r.headers, r.body, false⟩

/-- C165 (negation): every error that a server of this package answers with a body is such an answer: an API that fails costs its client a connection. -/
theorem C165_server_violated (N : NetExt) (tid accept : Str) (f : Bytes → Done Bytes) (body : Option (Option Bytes)) (e : Error)
    (hf : readBody N f body = .err e) (hs : ErrorStatus (Errors.errorCode (some e) 500)) (hb : bodyAllowed (Errors.errorCode (some e) 500) = true)
    (h200 : Errors.errorCode (some e) 500 ≠ 200) :
    ∃ r, handleRequest N tid accept f body = some (r, r.status) ∧ ∀ acts, Made acts (some (ofResp r)) → Left acts (some (ofResp r)) := by
  refine ⟨_, by simp only [handleRequest, hf]; exact error_answer N tid accept e _ rfl hs, fun acts hm => (C165_left_iff _ _ hm).2 ⟨_, rfl, ⟨?_, ?_⟩, ?_⟩⟩
  · exact h200
  · intro h204
    simp only [ofResp] at h204
    rw [h204] at hb
    exact absurd hb (by decide)
  · have hne : ∀ (c : Char) (l : Str), (utf8 (c :: l)).isEmpty = false := by
      intro c l
      have h1 : String.utf8EncodeChar c ≠ [] := String.utf8EncodeChar_ne_nil
      cases h2 : String.utf8EncodeChar c with
      | nil => exact absurd h2 h1
      | cons a t => simp [utf8, h2]
    simp only [Stream.hasBody, ofResp, hb, if_true, Bool.true_and, Bool.or_false, Bool.not_eq_true']
    split
    · exact hne '{' _
    · exact hne '{' _

example : ∃ r, handleRequest NT (lit "7") [] (fun _ => .err (.httpErr 503 none)) (some (some [])) = some (r, r.status) ∧
    ∀ acts, Made acts (some (ofResp r)) → Left acts (some (ofResp r)) :=
  C165_server_violated NT _ _ _ _ (.httpErr 503 none) rfl ⟨by decide, by decide⟩ (by decide) (by decide)

/-- A call of an API of this package that fails: the answer is written by `Server` (see `handleRequest`), and has a body. -/
def failed500 : Stream := ⟨500, [], utf8 (internalError (lit "t")), false⟩

/-- Three failing calls and one that succeeds: three connections are held, the fourth can be used again. -/
example : ({} : Pool).calls [((fetch NT true (some failed500)).1, some failed500), ((fetch NT true (some failed500)).1, some failed500),
      ((api (X := XT) NT anyUrl sortedOrder twoTy (fun _ _ => some failed500) (Any.nil, lit "a", lit "b", ())).1, some failed500),
      ((fetch NT true (some ⟨200, [], utf8 (lit "ok"), false⟩)).1, some ⟨200, [], utf8 (lit "ok"), false⟩)] = ⟨1, 3, 4⟩ := by decide +kernel

/-- With `API`, the body is not closed if it is no object, but it is read. -/
example : (api (X := XT) NT anyUrl sortedOrder twoTy (fun _ _ => some ⟨200, [], utf8 (lit "[]"), false⟩) (Any.nil, lit "a", lit "b", ())).1 = [.answer, .read] ∧
    (api (X := XT) NT anyUrl sortedOrder twoTy (fun _ _ => some ⟨200, [], utf8 (lit "{}"), false⟩) (Any.nil, lit "a", lit "b", ())).1 = [.answer, .read, .close] := by decide +kernel

end Verif.Http.Bodies

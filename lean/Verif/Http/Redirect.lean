import Verif.Http.Methods
/-!
# Calls that are redirected (http/client.go L62-73, L75-126) (C179)

`Client.cli` is an `http.Client` without `CheckRedirect`, so that redirects are followed. Assumed of `net/http` (`redirectBehavior`, `defaultCheckRedirect`):

* the codes 301, 302 and 303 are followed without the body, with GET unless the method was HEAD; 307 and 308 with the same method and the body of the first request (`bytes.Buffer` can be read again);
* a body that a redirect before has dropped comes back or not depending on the version (`again`);
* a response without `Location` is returned as it is; the tenth redirect is an error.

`Web` is what the addresses answer, and what that does to the state of the servers, which is any type.
-/
set_option autoImplicit false
namespace Verif.Http.Redirect
open Verif.Strconv Verif.Enc Verif.Api Verif.Http Verif.Http.Methods

variable {X : Ext} [DecidableEq X.F] [DecidableEq X.T]

/-- An answer and its header `Location`, resolved. http/client.go L62-73. -/
structure Ans where
  resp : Resp
  loc : Option Str

/-- What the addresses answer to a method and a body; `none`: no answer. http/client.go L62-73. -/
abbrev Web (σ : Type) := σ → Str → Str → Bytes → σ × Option Ans

/-- Is it a redirect? `redirectBehavior` in `net/http`, for http/client.go L63. -/
def redirects (code : Int) : Bool := code = 301 || code = 302 || code = 303 || code = 307 || code = 308

/-- Does it keep the method and the body? `redirectBehavior` in `net/http`, for http/client.go L63. -/
def keeps (code : Int) : Bool := code = 307 || code = 308

/-- The method of the next request. `redirectBehavior` in `net/http`, for http/client.go L63. -/
def nextMethod (code : Int) (method : Str) : Str :=
  if keeps code then method else if method = lit "GET" ∨ method = lit "HEAD" then method else lit "GET"

/-- `http.Client.Do` (http/client.go L63) of a request whose body was `orig` first: the state of the servers afterwards, and the last response; `none`: an error. `has`: no redirect has dropped the body so far. -/
def follow {σ : Type} (again : Bool) (W : Web σ) (orig : Bytes) : Nat → σ → Str → Str → Bool → Bytes → σ × Option Resp
  | left, s, url, method, has, body =>
    match W s url method body with
    | (s, none) => (s, none)
    | (s, some a) =>
      if redirects a.resp.status then
        match a.loc, left with
        | none, _ => (s, some a.resp)
        | some _, 0 => (s, none)
        | some u, left + 1 =>
          let has := keeps a.resp.status && has
          follow again W orig left s u (nextMethod a.resp.status method) has (if keeps a.resp.status && (again || has) then orig else [])
      else (s, some a.resp)

/-- `http.Client.Do` of the POST that `Client.API` makes (http/client.go L63, L102-109): nine redirects are followed. -/
def post {σ : Type} (again : Bool) (W : Web σ) (s : σ) (url : Str) (body : Bytes) : σ × Option Resp :=
  follow again W body 9 s url (lit "POST") true body

/-- An API at an address: http/server.go L191-246. The application sends no redirects of its own. -/
def served {σ : Type} (N : NetExt) (O : Order) (tid : Str) (A : API X σ) (s : σ) (method : Str) (body : Bytes) : σ × Option Ans :=
  let r := request N O tid A s ⟨method, [], [], some (some body)⟩
  (r.1, r.2.map fun r => ⟨r.1, none⟩)

/-! ### specification -/

/-- The codes of redirects: without the body, or with it. -/
def Drops (c : Int) : Prop := c = 301 ∨ c = 302 ∨ c = 303

def Keeps (c : Int) : Prop := c = 307 ∨ c = 308

instance (c : Int) : Decidable (Drops c) := by unfold Drops; infer_instance
instance (c : Int) : Decidable (Keeps c) := by unfold Keeps; infer_instance

/-- From `url` one gets to `last` by redirects with these codes, whatever the method and the body. -/
def Leads {σ : Type} (W : Web σ) (s : σ) : List Int → Str → Str → Prop
  | [], url, last => url = last
  | c :: cs, url, last => (Drops c ∨ Keeps c) ∧ ∃ next, (∀ method body, ∃ r, W s url method body = (s, some ⟨r, some next⟩) ∧ r.status = c) ∧ Leads W s cs next last

/-- The method after these redirects of a POST. -/
def methodAfter (cs : List Int) : Str := if ∀ c ∈ cs, Keeps c then lit "POST" else lit "GET"

/-- The body after them. -/
def bodyAfter (again : Bool) (cs : List Int) (body : Bytes) : Bytes :=
  if ∀ c ∈ cs, Keeps c then body else if again = true ∧ ∃ c, cs.getLast? = some c ∧ Keeps c then body else []

/-- The answer is not a redirect. -/
def Final {σ : Type} (r : σ × Option Ans) : Prop := ∀ a, r.2 = some a → (¬ Drops a.resp.status ∧ ¬ Keeps a.resp.status) ∨ a.loc = none

/-! ### lemmas -/

theorem keeps_iff (c : Int) : keeps c = true ↔ Keeps c := by simp [keeps, Keeps]

theorem redirects_iff (c : Int) : redirects c = true ↔ Drops c ∨ Keeps c := by simp [redirects, Drops, Keeps, or_assoc]

theorem all_keeps (cs : List Int) : cs.all keeps = true ↔ ∀ c ∈ cs, Keeps c := by simp only [List.all_eq_true, keeps_iff]

theorem drops_not (c : Int) (h : Drops c) : ¬ Keeps c := by unfold Drops Keeps at *; omega

theorem follow_final {σ : Type} (again : Bool) (W : Web σ) (orig : Bytes) (left : Nat) (s : σ) (url method : Str) (has : Bool) (body : Bytes) (h : Final (W s url method body)) :
    follow again W orig left s url method has body = ((W s url method body).1, (W s url method body).2.map Ans.resp) := by
  rw [follow.eq_def]
  rcases hw : W s url method body with ⟨s', _ | a⟩
  · simp only [hw, Option.map_none]
  · rcases h a (by rw [hw]) with h | h
    · have h : redirects a.resp.status = false := by
        cases hr : redirects a.resp.status with
        | false => rfl
        | true => exact absurd ((redirects_iff _).1 hr) fun hh => hh.elim h.1 h.2
      simp only [hw, h, Bool.false_eq_true, if_false, Option.map_some]
    · simp only [hw, h, Option.map_some]
      split <;> rfl

/-- The method and the body after a chain, for any request on the way. -/
def chain (again : Bool) (orig : Bytes) : List Int → Str → Bool → Bytes → Str × Bytes
  | [], method, _, body => (method, body)
  | c :: cs, method, has, _ => chain again orig cs (nextMethod c method) (keeps c && has) (if keeps c && (again || (keeps c && has)) then orig else [])

theorem follow_chain {σ : Type} (again : Bool) (W : Web σ) (orig : Bytes) (s : σ) (last : Str) : ∀ (cs : List Int) (left : Nat) (url method : Str) (has : Bool) (body : Bytes), cs.length ≤ left →
    Leads W s cs url last → Final (W s last (chain again orig cs method has body).1 (chain again orig cs method has body).2) →
    follow again W orig left s url method has body =
      ((W s last (chain again orig cs method has body).1 (chain again orig cs method has body).2).1, (W s last (chain again orig cs method has body).1 (chain again orig cs method has body).2).2.map Ans.resp)
  | [], left, url, method, has, body, _, hl, hf => by
    cases hl
    exact follow_final again W orig left s _ method has body hf
  | c :: cs, 0, _, _, _, _, hn, _, _ => by simp at hn
  | c :: cs, left + 1, url, method, has, body, hn, hl, hf => by
    obtain ⟨h1, next, h2, h3⟩ := hl
    obtain ⟨r, h4, h5⟩ := h2 method body
    rw [follow.eq_def]
    simp only [h4, h5, (redirects_iff c).2 h1, if_true]
    exact follow_chain again W orig s last cs left next _ _ _ (by simpa using hn) h3 hf

theorem nextMethod_get (c : Int) : nextMethod c (lit "GET") = lit "GET" := by
  unfold nextMethod
  split
  · rfl
  · simp

theorem chain_get (again : Bool) (orig : Bytes) : ∀ (cs : List Int) (body : Bytes), (chain again orig cs (lit "GET") false body).1 = lit "GET" ∧
    (chain again orig cs (lit "GET") false body).2 = match cs.getLast? with | none => body | some c => if again && keeps c then orig else []
  | [], body => ⟨rfl, rfl⟩
  | [c], body => by
    simp only [chain, nextMethod_get, Bool.and_false, Bool.or_false, List.getLast?_singleton, true_and]
    cases again <;> cases keeps c <;> rfl
  | c :: c' :: cs, body => by
    have := chain_get again orig (c' :: cs) (if keeps c && (again || (keeps c && false)) then orig else [])
    rw [chain, nextMethod_get, Bool.and_false]
    rw [Bool.and_false] at this
    rw [List.getLast?_cons_cons]
    refine ⟨this.1, ?_⟩
    rw [this.2]
    cases h : (c' :: cs).getLast? with
    | none => simp at h
    | some _ => rfl

/-- The same as functions of booleans. -/
def methodB (cs : List Int) : Str := if cs.all keeps then lit "POST" else lit "GET"

def bodyB (again : Bool) (cs : List Int) (body : Bytes) : Bytes := if cs.all keeps then body else if again && (cs.getLast?.map keeps).getD true then body else []

theorem method_eq (cs : List Int) : methodB cs = methodAfter cs := by
  unfold methodB methodAfter
  by_cases h : ∀ c ∈ cs, Keeps c
  · rw [if_pos h, if_pos ((all_keeps cs).2 h)]
  · rw [if_neg h, if_neg (fun hh => h ((all_keeps cs).1 hh))]

theorem body_eq (again : Bool) (cs : List Int) (body : Bytes) : bodyB again cs body = bodyAfter again cs body := by
  unfold bodyB bodyAfter
  by_cases h : ∀ c ∈ cs, Keeps c
  · rw [if_pos h, if_pos ((all_keeps cs).2 h)]
  · rw [if_neg h, if_neg (fun hh => h ((all_keeps cs).1 hh))]
    have hne : cs ≠ [] := by rintro rfl; exact h (by simp)
    cases hl : cs.getLast? with
    | none => exact absurd (List.getLast?_eq_none_iff.1 hl) hne
    | some c =>
      simp only [Option.map_some, Option.getD_some, Option.some.injEq, exists_eq_left', Bool.and_eq_true, keeps_iff]

theorem chain_post (again : Bool) (orig : Bytes) : ∀ cs : List Int, chain again orig cs (lit "POST") true orig = (methodB cs, bodyB again cs orig)
  | [] => rfl
  | c :: cs => by
    rw [chain]
    cases hk : keeps c with
    | true =>
      have := chain_post again orig cs
      simp only [nextMethod, hk, if_true, Bool.and_true, Bool.or_true, this, methodB, bodyB, List.all_cons, Bool.true_and]
      cases ha : cs.all keeps with
      | true => rfl
      | false =>
        cases cs with
        | nil => simp at ha
        | cons c' cs => rw [List.getLast?_cons_cons]
    | false =>
      have hm : nextMethod c (lit "POST") = lit "GET" := by
        unfold nextMethod; rw [hk]; decide
      obtain ⟨h1, h2⟩ := chain_get again orig cs []
      simp only [hm, Bool.false_and, Bool.false_eq_true, if_false]
      refine Prod.ext ?_ ?_
      · rw [h1]; simp [methodB, hk]
      · rw [h2]
        simp only [bodyB, List.all_cons, hk, Bool.false_and, Bool.false_eq_true, if_false]
        cases cs with
        | nil => simp [hk]
        | cons c' cs =>
          rw [List.getLast?_cons_cons]
          cases h : (c' :: cs).getLast? with
          | none => simp at h
          | some x => simp

/-! ### C179 -/

/-- C179: at most nine redirects lead to the last address, with the method and the body that are left of the POST. -/
theorem C179_chain {σ : Type} (again : Bool) (W : Web σ) (s : σ) (cs : List Int) (url last : Str) (body : Bytes) (hn : cs.length ≤ 9) (hl : Leads W s cs url last)
    (hf : Final (W s last (methodAfter cs) (bodyAfter again cs body))) :
    post again W s url body = ((W s last (methodAfter cs) (bodyAfter again cs body)).1, (W s last (methodAfter cs) (bodyAfter again cs body)).2.map Ans.resp) := by
  have := follow_chain again W body s last cs 9 url (lit "POST") true body hn hl
  rw [chain_post, method_eq, body_eq] at this
  exact this hf

/-- C179: redirects with the codes 307 and 308 change nothing: the call is the call at the last address. -/
theorem C179_keeps_partial {σ : Type} (again : Bool) (W : Web σ) (s : σ) (cs : List Int) (url last : Str) (body : Bytes) (hn : cs.length ≤ 9) (hl : Leads W s cs url last)
    (hk : ∀ c ∈ cs, Keeps c) (hf : Final (W s last (lit "POST") body)) : post again W s url body = post again W s last body := by
  have h1 := C179_chain again W s cs url last body hn hl
  have h2 := C179_chain again W s [] last last body (by simp) rfl
  rw [methodAfter, bodyAfter, if_pos hk, if_pos hk] at h1
  rw [methodAfter, bodyAfter, if_pos (by simp), if_pos (by simp)] at h2
  rw [h1 hf, h2 hf]

/-- C179: a redirect too many is an error. -/
theorem C179_limit {σ : Type} (again : Bool) (W : Web σ) (s : σ) (url : Str) (body : Bytes)
    (hW : ∀ s url method body, ∃ s' r next, W s url method body = (s', some ⟨r, some next⟩) ∧ (Drops r.status ∨ Keeps r.status)) : (post again W s url body).2 = none := by
  have : ∀ (left : Nat) (s : σ) (url method : Str) (has : Bool) (b : Bytes), (follow again W body left s url method has b).2 = none := by
    intro left
    induction left with
    | zero =>
      intro s url method has b
      obtain ⟨s', r, next, h1, h2⟩ := hW s url method b
      have h2 := (redirects_iff _).2 h2
      rw [follow.eq_def]; simp only [h1, h2, if_true]
    | succ left ih =>
      intro s url method has b
      obtain ⟨s', r, next, h1, h2⟩ := hW s url method b
      have h2 := (redirects_iff _).2 h2
      rw [follow.eq_def]; simp only [h1, h2, if_true]
      exact ih _ _ _ _ _
  exact this 9 s url _ true body

/-- And no call makes more than ten requests. -/
theorem C179_requests {σ : Type} (again : Bool) (W : Web σ) (size : σ → Nat) (hW : ∀ s url method body, size (W s url method body).1 ≤ size s + 1) (s : σ) (url : Str) (body : Bytes) :
    size (post again W s url body).1 ≤ size s + 10 := by
  have : ∀ (left : Nat) (s : σ) (url method : Str) (has : Bool) (b : Bytes), size (follow again W body left s url method has b).1 ≤ size s + (left + 1) := by
    intro left
    induction left with
    | zero =>
      intro s url method has b
      have := hW s url method b
      rw [follow.eq_def]
      rcases hw : W s url method b with ⟨s', _ | a⟩ <;> rw [hw] at this <;> simp only [hw] at this ⊢
      · omega
      · cases redirects a.resp.status <;> cases a.loc <;> simp only [Bool.false_eq_true, if_false, if_true] <;> omega
    | succ left ih =>
      intro s url method has b
      have := hW s url method b
      rw [follow.eq_def]
      rcases hw : W s url method b with ⟨s', _ | a⟩ <;> rw [hw] at this <;> simp only [hw] at this ⊢
      · omega
      · cases redirects a.resp.status <;> cases a.loc <;> simp only [Bool.false_eq_true, if_false, if_true]
        case true.some u =>
          have := ih s' u (nextMethod a.resp.status method) (keeps a.resp.status && has) (if keeps a.resp.status && (again || (keeps a.resp.status && has)) then body else [])
          omega
        all_goals omega
  exact this 9 s url _ true body

/-- C179: a redirect that says nowhere is an error with its code, and the object is as it was. -/
theorem C179_nowhere {σ : Type} (again : Bool) (W : Web σ) (s : σ) (N : NetExt) (U : Str → Option Str) (O : Order) (fs : Fields) (obj : FVals X fs)
    (h : AHandler) (d : List (Str × Node X)) (t u : Str) (us : List Str) (r : Resp) (s' : σ) (hh : newHandler (X := X) U (.ptr (.struct fs) (some obj)) = some h)
    (hd : send O fs obj h.ins [] = .ok d) (he : encode (.map d) = .ok t) (hu : h.urls = u :: us) (hr : W s u (lit "POST") (utf8 t) = (s', some ⟨r, none⟩)) (hc : Drops r.status ∨ Keeps r.status) :
    (clientAPI N U O fs (fun u b => (post again W s u b).2) obj).1 = obj ∧ (clientAPI N U O fs (fun u b => (post again W s u b).2) obj).2.code = some r.status := by
  have hp : (post again W s u (utf8 t)).2 = some r := by
    unfold post
    rw [follow_final again W _ 9 s u _ true _ (by rw [hr]; intro a ha; injection ha with ha; exact Or.inr (by rw [← ha])), hr]
    rfl
  have hne : r.status ≠ 200 ∧ r.status ≠ 204 := by
    constructor <;> (intro h; rw [h] at hc; exact absurd hc (by decide))
  exact (C59_code N U O fs _ obj h d t u us r hh hd he hu hp).2 hne.1 hne.2

/-- C179 is violated: after a redirect with the code 301, 302 or 303, which is how proxies lead from http to https, the API runs on no inputs, whatever the client has sent. -/
theorem C179_inputs_violated {σ : Type} (again : Bool) (W : Web σ) (s : σ) (U : Str → Option Str) (N : NetExt) (hN : N.text [] = []) (O : Order) (tid : Str) (A : API X σ)
    (tmpl : Option (Val X (.struct A.fs))) (hh : newHandler U (.ptr (.struct A.fs) tmpl) = some A.handler) (hnow : A.now = content A.fs tmpl)
    (hex : ∀ f ∈ A.fs.infos, f.exported = true) (hreq : ∀ f ∈ A.fs.infos, ¬ IsRequired f) (url last : Str) (code : Int) (hc : Drops code)
    (hl : Leads W s [code] url last) (hA : W s last = served N O tid A s) :
    ∃ obj, (∀ j f t x, At obj j f t x → IsIn f → ¬ IsAuth f → x = zero X t) ∧ ∀ body, (post again W s url body).1 = (A.exec s obj).1 := by
  obtain ⟨_, obj, h1, h2⟩ := C174_bare_violated U N hN O tid A tmpl hh hnow hex hreq s ⟨lit "GET", [], [], some (some [])⟩ rfl
  refine ⟨obj, h2, fun body => ?_⟩
  have hk : ¬ ∀ c ∈ [code], Keeps c := fun h => drops_not code hc (h code (by simp))
  have hb : ¬ (again = true ∧ ∃ c, [code].getLast? = some c ∧ Keeps c) := by
    rintro ⟨_, c, hc1, hc2⟩
    have : code = c := by simpa using hc1
    exact drops_not code hc (by rw [this]; exact hc2)
  have := C179_chain again W s [code] url last body (by simp) hl
  rw [methodAfter, bodyAfter, if_neg hk, if_neg hk, if_neg hb] at this
  rw [this (by rw [hA]; unfold served Final; intro a ha; obtain ⟨x, _, rfl⟩ := Option.map_eq_some_iff.1 ha; exact Or.inr rfl), hA]
  exact h1

/-- And the client takes the answer to that as the answer to its call: what it says is the same whatever its inputs are. -/
theorem C179_answer_violated {σ : Type} (again : Bool) (W : Web σ) (s : σ) (N N' : NetExt) (U : Str → Option Str) (O : Order) (tid : Str) (A : API X σ) (fs : Fields) (obj : FVals X fs)
    (h : AHandler) (u : Str) (us : List Str) (last : Str) (hh : newHandler (X := X) U (.ptr (.struct fs) (some obj)) = some h)
    (hu : h.urls = u :: us) (code : Int) (hc : Drops code) (hl : Leads W s [code] u last) (hA : W s last = served N O tid A s) :
    clientAPI N' U O fs (fun u b => (post again W s u b).2) obj =
      clientAPI N' U O fs (fun _ _ => (request N O tid A s ⟨lit "GET", [], [], some (some [])⟩).2.map Prod.fst) obj := by
  have hk : ¬ ∀ c ∈ [code], Keeps c := fun h => drops_not code hc (h code (by simp))
  have hb : ¬ (again = true ∧ ∃ c, [code].getLast? = some c ∧ Keeps c) := by
    rintro ⟨_, c, hc1, hc2⟩
    have : code = c := by simpa using hc1
    exact drops_not code hc (by rw [this]; exact hc2)
  have hp : ∀ body, (post again W s u body).2 = (request N O tid A s ⟨lit "GET", [], [], some (some [])⟩).2.map Prod.fst := fun body => by
    have := C179_chain again W s [code] u last body (by simp) hl
    rw [methodAfter, bodyAfter, if_neg hk, if_neg hk, if_neg hb] at this
    rw [this (by rw [hA]; unfold served Final; intro a ha; obtain ⟨x, _, rfl⟩ := Option.map_eq_some_iff.1 ha; exact Or.inr rfl), hA]
    simp only [served, Option.map_map]
    rfl
  unfold clientAPI
  simp only [hh, hu, hp]

/-! ### concrete cases -/

/-- `http://a/x` leads to `https://a/x` by `code`, where `reset` is. -/
def proxied (code : Int) : Web Int := fun s url method body =>
  if url = lit "/x" then (s, some ⟨⟨code, [], []⟩, some (lit "https:/x")⟩) else served NT sortedOrder [] reset s method body

example (code : Int) (hc : Drops code ∨ Keeps code) (s : Int) : Leads (proxied code) s [code] (lit "/x") (lit "https:/x") ∧ proxied code s (lit "https:/x") = served NT sortedOrder [] reset s :=
  ⟨⟨hc, lit "https:/x", fun _ _ => ⟨⟨code, [], []⟩, rfl, rfl⟩, rfl⟩, rfl⟩

/-- A call that sets the number to 3: redirected with 308 it does, with 301 it sets it to 0, and both are answered alike. -/
example : post true (proxied 308) 7 (lit "/x") (utf8 (lit "{\"to\":3}")) = (3, some ⟨200, [(lit "Content-Type", lit "application/json")], utf8 (lit "{\"was\":7}")⟩) ∧
    post true (proxied 301) 7 (lit "/x") (utf8 (lit "{\"to\":3}")) = (0, some ⟨200, [(lit "Content-Type", lit "application/json")], utf8 (lit "{\"was\":7}")⟩) := by
  decide +kernel

/-- Addresses that count the requests, and lead to themselves `n` times. -/
def circle (n : Nat) : Web Nat := fun s _ _ _ => if s < n then (s + 1, some ⟨⟨307, [], []⟩, some []⟩) else (s + 1, some ⟨⟨200, [], []⟩, none⟩)

example : post true (circle 9) 0 [] [] = (10, some ⟨200, [], []⟩) ∧ post true (circle 10) 0 [] [] = (10, none) ∧ post true (circle 500) 0 [] [] = (10, none) := by decide +kernel

/-- After 303 and 307 the method is GET, and whether the body is there again depends on the version. -/
example : methodAfter [303, 307] = lit "GET" ∧ bodyAfter true [303, 307] [1] = [1] ∧ bodyAfter false [303, 307] [1] = [] ∧ bodyAfter true [307, 303] [1] = [] := by decide +kernel

end Verif.Http.Redirect

/-!
# The address that a client calls (api/tag.go L44-50, http/client.go L91-104, http/api.go L66-75, http/server.go L192) (C180)

The tag `url` of an API is parsed by `url.Parse`. The server registers its `Path`. The client writes it as text again, parses that relative to `BaseUrl`, writes the result as text, and
`http.NewRequest` parses that; the path and the query are sent in the request line, which the server parses.

`parse`, `text`, `resolve` are `net/url` (`parse`, `URL.String`, `URL.ResolveReference`) on bytes, in Go 1.20. Left out: fragments, which are not sent (no `#`); what is read as an authority is
the parameter `A` (`parseAuthority`, without the user), of which only `A host = host` for the host of `BaseUrl` is assumed, and hosts are written as they are.
-/
set_option autoImplicit false
namespace Verif.Http.Address

abbrev B := List UInt8

/-- ASCII text as bytes. -/
def asc (s : String) : B := s.toList.map fun c => UInt8.ofNat c.toNat

/-! ### net/url -/

/-- `unhex` and `ishex` of `net/url`. For api/tag.go L46. -/
def hexVal (c : UInt8) : Option UInt8 :=
  if 48 ≤ c ∧ c ≤ 57 then some (c - 48) else if 97 ≤ c ∧ c ≤ 102 then some (c - 87) else if 65 ≤ c ∧ c ≤ 70 then some (c - 55) else none

/-- `upperhex` of `net/url`. For http/client.go L94. -/
def hexDigit (n : UInt8) : UInt8 := if n < 10 then 48 + n else 55 + n

/-- `unescape` of `net/url` for paths. For api/tag.go L46. -/
def unescape : B → Option B
  | [] => some []
  | c :: s =>
    if c = 37 then
      match s with
      | a :: b :: s => match hexVal a, hexVal b with
        | some x, some y => (unescape s).map ((x * 16 + y) :: ·)
        | _, _ => none
      | _ => none
    else (unescape s).map (c :: ·)

/-- Not `shouldEscape` of `net/url` for paths. For http/client.go L94. -/
def plain (c : UInt8) : Bool := 97 ≤ c && c ≤ 122 || 65 ≤ c && c ≤ 90 || 48 ≤ c && c ≤ 57 || (asc "-_.~$&+,/:;=@").contains c

/-- `escape` of `net/url` for paths. For http/client.go L94. -/
def escape : B → B
  | [] => []
  | c :: s => if plain c then c :: escape s else 37 :: hexDigit (c / 16) :: hexDigit (c % 16) :: escape s

/-- `validEncoded` of `net/url` for paths. For http/client.go L94. -/
def validEncoded (s : B) : Bool := s.all fun c => plain c || c = 37 || (asc "!'()*[]").contains c

/-- `url.URL`. api/tag.go L18. -/
structure URL where
  scheme : B := []
  opaq : B := []
  host : B := []
  path : B := []
  raw : B := []
  force : Bool := false
  query : B := []
deriving DecidableEq

/-- `URL.setPath`: the path and the raw path. For api/tag.go L46. -/
def setPath (e : B) : Option (B × B) := (unescape e).map fun p => (p, if e = escape p then [] else e)

/-- `URL.EscapedPath`. For http/client.go L94. -/
def URL.escaped (u : URL) : B :=
  if u.raw ≠ [] ∧ validEncoded u.raw = true ∧ unescape u.raw = some u.path then u.raw else if u.path = [42] then [42] else escape u.path

/-- The query and its question mark, if there is one. -/
def URL.tail (u : URL) : B := if u.force = true ∨ u.query ≠ [] then 63 :: u.query else []

/-- `URL.String`, without fragment. http/client.go L94, L100. -/
def URL.text (u : URL) : B :=
  let pre := if u.scheme = [] then [] else u.scheme ++ [58]
  (if u.opaq ≠ [] then pre ++ u.opaq
  else
    let pre := if u.scheme ≠ [] ∨ u.host ≠ [] then pre ++ (if u.host ≠ [] ∨ u.path ≠ [] then [47, 47] else []) ++ u.host else pre
    let path := u.escaped
    let pre := if path ≠ [] ∧ path.head? ≠ some 47 ∧ u.host ≠ [] then pre ++ [47] else pre
    let pre := if pre = [] ∧ (path.takeWhile (· ≠ 47)).contains 58 then [46, 47] else pre
    pre ++ path) ++ u.tail

/-- `getScheme` of `net/url`; `acc` is what was read, reversed; `none`: an error. For api/tag.go L46. -/
def getScheme (all : B) : B → B → Option (B × B)
  | _, [] => some ([], all)
  | acc, c :: s =>
    if 97 ≤ c && c ≤ 122 || 65 ≤ c && c ≤ 90 then getScheme all (c :: acc) s
    else if 48 ≤ c && c ≤ 57 || c = 43 || c = 45 || c = 46 then (if acc = [] then some ([], all) else getScheme all (c :: acc) s)
    else if c = 58 then (if acc = [] then none else some (acc.reverse, s))
    else some ([], all)

/-- `strings.ToLower` of a scheme. For api/tag.go L46. -/
def lower (s : B) : B := s.map fun c => if 65 ≤ c && c ≤ 90 then c + 32 else c

/-- Cutting off the query: what is before it, is there a bare question mark, the query. `parse` of `net/url`, for api/tag.go L46. -/
def cutQuery (s : B) : B × Bool × B :=
  if s.getLast? = some 63 ∧ s.count 63 = 1 then (s.dropLast, true, []) else (s.takeWhile (· ≠ 63), false, (s.dropWhile (· ≠ 63)).drop 1)

/-- A control character. `stringContainsCTLByte` of `net/url`, for api/tag.go L46. -/
def ctl (c : UInt8) : Bool := c < 32 || c = 127

/-- `parse` of `net/url`; `via`: it is the request line that is parsed. api/tag.go L46, http/client.go L94, L100. -/
def parse (A : B → Option B) (via : Bool) (t : B) : Option URL :=
  if t.any ctl = true ∨ via = true ∧ t = [] then none
  else if t = [42] then some { path := [42] }
  else
    match getScheme t [] t with
    | none => none
    | some (scheme, rest) =>
      let q := cutQuery rest
      let u : URL := { scheme := lower scheme, force := q.2.1, query := q.2.2 }
      if q.1.head? ≠ some 47 ∧ scheme ≠ [] then some { u with opaq := q.1 }
      else if q.1.head? ≠ some 47 ∧ (via = true ∨ (q.1.takeWhile (· ≠ 47)).contains 58 = true) then none
      else if (scheme ≠ [] ∨ via = false ∧ q.1.take 3 ≠ [47, 47, 47]) ∧ q.1.take 2 = [47, 47] then
        match A ((q.1.drop 2).takeWhile (· ≠ 47)), setPath ((q.1.drop 2).dropWhile (· ≠ 47)) with
        | some h, some (p, r) => some { u with host := h, path := p, raw := r }
        | _, _ => none
      else (setPath q.1).map fun p => { u with path := p.1, raw := p.2 }

/-- The elements of a path: `strings.Cut` at each slash. -/
def split : B → List B
  | [] => [[]]
  | c :: s => if c = 47 then [] :: split s else match split s with
    | [] => [[c]]
    | e :: l => (c :: e) :: l

/-- The loop of `resolvePath` of `net/url`; `dst` is what is written, without the first slash. For http/client.go L94. -/
def resolveLoop (dst : B) (first : Bool) : List B → B
  | [] => dst
  | e :: l =>
    if e = [46] then resolveLoop dst false l
    else if e = [46, 46] then
      if dst.contains 47 then resolveLoop ((dst.reverse.dropWhile (· ≠ 47)).drop 1).reverse first l else resolveLoop [] true l
    else resolveLoop (dst ++ (if first then [] else [47]) ++ e) false l

/-- `resolvePath` of `net/url`. For http/client.go L94. -/
def resolvePath (base ref : B) : B :=
  let full := if ref = [] then base else if ref.head? = some 47 then ref else (base.reverse.dropWhile (· ≠ 47)).reverse ++ ref
  if full = [] then []
  else
    let l := split full
    let dst := resolveLoop [] true l
    let dst := if l.getLast? = some [46] ∨ l.getLast? = some [46, 46] then dst ++ [47] else dst
    if dst.head? = some 47 then dst else 47 :: dst

/-- `URL.setPath` whose error is ignored. -/
def URL.withPath (u : URL) (e : B) : URL := match setPath e with
  | some (p, r) => { u with path := p, raw := r }
  | none => u

/-- `URL.ResolveReference`, without fragment. http/client.go L94. -/
def resolve (b ref : URL) : URL :=
  let u := { ref with scheme := if ref.scheme = [] then b.scheme else ref.scheme }
  if ref.scheme ≠ [] ∨ ref.host ≠ [] then u.withPath (resolvePath ref.escaped [])
  else if ref.opaq ≠ [] then { u with host := [], path := [] }
  else
    let u := if ref.path = [] ∧ ref.force = false ∧ ref.query = [] then { u with query := b.query } else u
    { u with host := b.host }.withPath (resolvePath b.escaped ref.escaped)

/-- `URL.RequestURI`: what is in the request line. For http/client.go L107. -/
def URL.uri (u : URL) : B :=
  (if u.opaq = [] then (if u.escaped = [] then [47] else u.escaped) else if u.opaq.take 2 = [47, 47] then u.scheme ++ [58] ++ u.opaq else u.opaq) ++ u.tail

/-! ### the framework -/

/-- The path the server registers. http/api.go L66-75. -/
def registered (A : B → Option B) (tag : B) : Option B := (parse A false tag).map URL.path

/-- The url that the client makes of a tag and its `BaseUrl`. http/client.go L91-104. -/
def target (A : B → Option B) (base : Option URL) (tag : B) : Option URL :=
  (parse A false tag).bind fun u =>
    (match base with
    | none => some u
    | some b => (parse A false u.text).map (resolve b)).bind fun u => parse A false u.text

/-- The host that is called, and the path of the request there (`r.URL.Path`); `none`: an error. `net/http` sends to http and https with a host only, and request lines end at a space.
http/client.go L63, http/server.go L192. -/
def arrives (A : B → Option B) (base : Option URL) (tag : B) : Option (B × B) :=
  (target A base tag).bind fun u =>
    if (u.scheme = asc "http" ∨ u.scheme = asc "https") ∧ u.host ≠ [] ∧ u.uri.contains 32 = false then (parse A true u.uri).map fun r => (u.host, r.path) else none

/-- The elements of a clean path, with those so far reversed. `path.Clean`, for http/server.go L192. -/
def cleanElems : List B → List B → List B
  | acc, [] => acc.reverse
  | acc, e :: l => if e = [] ∨ e = [46] then cleanElems acc l else if e = [46, 46] then cleanElems acc.tail l else cleanElems (e :: acc) l

/-- `cleanPath` of `net/http`. For http/server.go L192. -/
def cleanPath (p : B) : B :=
  let l := cleanElems [] (split p)
  if l = [] then [47] else l.flatMap (47 :: ·) ++ (if p.getLast? = some 47 then [47] else [])

/-- What `ServeMux` does with the path of a request that is not CONNECT: the address of a redirect with 301, or the path whose handler is looked for. http/server.go L192. -/
def routed (p : B) : B ⊕ B := if cleanPath p = p then .inr p else .inl (cleanPath p)

/-! ### specification -/

/-- `BaseUrl` is `scheme://host`, followed by any path. -/
structure Base (A : B → Option B) (b : URL) : Prop where
  scheme : b.scheme = asc "http" ∨ b.scheme = asc "https"
  host : b.host ≠ [] ∧ A b.host = some b.host
  chars : ∀ c ∈ b.host, c ≠ 47 ∧ c ≠ 63 ∧ c ≠ 32 ∧ ctl c = false

/-- The tag is a path, not `//…`, possibly followed by a query, in which there is no space. -/
def Rooted (tag : B) : Prop := tag.head? = some 47 ∧ tag.take 2 ≠ [47, 47] ∧ ∀ c ∈ tag.dropWhile (· ≠ 63), c ≠ 32

/-- No element of the path is `.` or `..`. -/
def NoDots (e : B) : Prop := ∀ x ∈ split e, x ≠ [46] ∧ x ≠ [46, 46]


/-! ### lemmas about bytes -/

theorem byte_all {P : UInt8 → Prop} (h : ∀ n : Fin 256, P (UInt8.ofNat n.val)) (c : UInt8) : P c := by
  have := h ⟨c.toNat, UInt8.toNat_lt c⟩
  simpa using this

theorem hex_hi (c : UInt8) : hexVal (hexDigit (c / 16)) = some (c / 16) := byte_all (P := fun c => hexVal (hexDigit (c / 16)) = some (c / 16)) (by decide +kernel) c
theorem hex_lo (c : UInt8) : hexVal (hexDigit (c % 16)) = some (c % 16) := byte_all (P := fun c => hexVal (hexDigit (c % 16)) = some (c % 16)) (by decide +kernel) c
theorem hex_sum (c : UInt8) : c / 16 * 16 + c % 16 = c := byte_all (P := fun c => c / 16 * 16 + c % 16 = c) (by decide +kernel) c
theorem hex_plain (c : UInt8) : plain (hexDigit (c / 16)) = true ∧ plain (hexDigit (c % 16)) = true :=
  byte_all (P := fun c => plain (hexDigit (c / 16)) = true ∧ plain (hexDigit (c % 16)) = true) (by decide +kernel) c

/-- A byte that is in an escaped path. -/
def okay (c : UInt8) : Bool := plain c || c = 37 || (asc "!'()*[]").contains c

theorem okay_not (c : UInt8) (h : okay c = true) : c ≠ 63 ∧ c ≠ 32 ∧ ctl c = false :=
  byte_all (P := fun c => okay c = true → c ≠ 63 ∧ c ≠ 32 ∧ ctl c = false) (by decide +kernel) c h

theorem valid_iff (s : B) : validEncoded s = true ↔ ∀ c ∈ s, okay c = true := by
  unfold validEncoded okay; rw [List.all_eq_true]

theorem unescape_escape : ∀ p : B, unescape (escape p) = some p
  | [] => rfl
  | c :: s => by
    unfold escape
    have ih := unescape_escape s
    split
    · rename_i h
      have hc : c ≠ 37 := by rintro rfl; revert h; decide
      unfold unescape
      rw [if_neg hc, ih]; rfl
    · unfold unescape
      simp only [if_true, hex_hi, hex_lo, ih, Option.map_some, hex_sum]

theorem valid_escape : ∀ p : B, validEncoded (escape p) = true
  | [] => rfl
  | c :: s => by
    have ih := (valid_iff _).1 (valid_escape s)
    rw [valid_iff]
    unfold escape
    split
    · rename_i h
      intro x hx
      rcases List.mem_cons.1 hx with rfl | hx
      · unfold okay; rw [h]; rfl
      · exact ih x hx
    · intro x hx
      rcases List.mem_cons.1 hx with rfl | hx
      · rfl
      · rcases List.mem_cons.1 hx with rfl | hx
        · unfold okay; rw [(hex_plain c).1]; rfl
        · rcases List.mem_cons.1 hx with rfl | hx
          · unfold okay; rw [(hex_plain c).2]; rfl
          · exact ih x hx

theorem unescape_slash (e p : B) (h : unescape e = some p) (he : e.head? = some 47) : p.head? = some 47 := by
  cases e with
  | nil => cases he
  | cons c s =>
    injection he with he; subst he
    unfold unescape at h
    rw [if_neg (by decide)] at h
    obtain ⟨q, _, rfl⟩ := Option.map_eq_some_iff.1 h
    rfl

theorem escape_slash (p : B) (h : p.head? = some 47) : (escape p).head? = some 47 := by
  cases p with
  | nil => cases h
  | cons c s =>
    injection h with h; subst h
    unfold escape
    rw [if_pos (by decide)]; rfl

/-- How a path is written that was parsed from `e`. -/
theorem escaped_set (u : URL) (e : B) (hs : setPath e = some (u.path, u.raw)) (he : e.head? = some 47) : u.escaped = if validEncoded e then e else escape u.path := by
  unfold setPath at hs
  obtain ⟨p, hp, hpr⟩ := Option.map_eq_some_iff.1 hs
  injection hpr with h1 h2
  have hstar : u.path ≠ [42] := by
    have := unescape_slash e p hp he
    rw [h1] at this
    intro h; rw [h] at this; cases this
  have hne : e ≠ [] := by rintro rfl; cases he
  unfold URL.escaped
  rw [if_neg hstar]
  by_cases h : e = escape p
  · rw [if_pos h] at h2
    rw [if_neg (by rw [← h2]; simp), ← h1, ← h, h, valid_escape, if_pos rfl]
  · rw [if_neg h] at h2
    rw [← h2, ← h1]
    by_cases hv : validEncoded e = true
    · rw [if_pos ⟨hne, hv, hp⟩, if_pos hv]
    · rw [if_neg (fun h => hv h.2.1), if_neg hv]

/-- Paths that were parsed are written in one way only, which is read as the same. -/
structure Written (u : URL) : Prop where
  slash : u.escaped.head? = some 47
  valid : validEncoded u.escaped = true
  reads : unescape u.escaped = some u.path

theorem written (u : URL) (e : B) (hs : setPath e = some (u.path, u.raw)) (he : e.head? = some 47) : Written u := by
  have hx := escaped_set u e hs he
  have hp : unescape e = some u.path := by
    unfold setPath at hs
    obtain ⟨p, hp, hpr⟩ := Option.map_eq_some_iff.1 hs
    injection hpr with h1 h2
    rw [hp, h1]
  cases hv : validEncoded e with
  | true =>
    rw [hv, if_pos rfl] at hx
    exact ⟨by rw [hx]; exact he, by rw [hx]; exact hv, by rw [hx]; exact hp⟩
  | false =>
    rw [hv, if_neg (by decide)] at hx
    exact ⟨by rw [hx]; exact escape_slash _ (unescape_slash e _ hp he), by rw [hx]; exact valid_escape _, by rw [hx]; exact unescape_escape _⟩

theorem set_again (u : URL) (hw : Written u) : ∃ r, setPath u.escaped = some (u.path, r) ∧ ∀ v : URL, v.path = u.path → v.raw = r → v.escaped = u.escaped ∧ Written v := by
  refine ⟨_, by unfold setPath; rw [hw.reads]; rfl, fun v h1 h2 => ?_⟩
  have hs : setPath u.escaped = some (v.path, v.raw) := by rw [h1, h2]; unfold setPath; rw [hw.reads]; rfl
  refine ⟨?_, written v _ hs hw.slash⟩
  rw [escaped_set v _ hs hw.slash, hw.valid, if_pos rfl]

/-! ### lemmas about urls -/

theorem takeWhile_app {P : UInt8 → Bool} (a : B) (c : UInt8) (b : B) (ha : ∀ x ∈ a, P x = true) (hc : P c = false) : (a ++ c :: b).takeWhile P = a ∧ (a ++ c :: b).dropWhile P = c :: b := by
  induction a with
  | nil => simp [hc]
  | cons x a ih =>
    have hx := ha x (List.mem_cons_self ..)
    have := ih fun y hy => ha y (List.mem_cons_of_mem _ hy)
    simp [hx, this]

theorem takeWhile_all {P : UInt8 → Bool} (a : B) (ha : ∀ x ∈ a, P x = true) : a.takeWhile P = a ∧ a.dropWhile P = [] := by
  induction a with
  | nil => simp
  | cons x a ih =>
    have hx := ha x (List.mem_cons_self ..)
    have := ih fun y hy => ha y (List.mem_cons_of_mem _ hy)
    simp [hx, this]

/-- A bare question mark has no query behind it. -/
def Asked (u : URL) : Prop := u.force = true → u.query = []

theorem cut_tail (pre : B) (u : URL) (hp : ∀ c ∈ pre, c ≠ 63) (hq : Asked u) : cutQuery (pre ++ u.tail) = (pre, u.force, u.query) := by
  have hpc : pre.count 63 = 0 := List.count_eq_zero.2 fun h => hp 63 h rfl
  have hpb : ∀ c ∈ pre, (decide (c ≠ 63)) = true := fun c hc => decide_eq_true (hp c hc)
  unfold URL.tail cutQuery
  by_cases hf : u.force = true
  · rw [if_pos (Or.inl hf), hq hf, hf]
    rw [if_pos ⟨by simp, by rw [List.count_append, hpc]; decide⟩]
    simp
  · have hf' : u.force = false := by simpa using hf
    by_cases hqq : u.query = []
    · have ht : ¬ (u.force = true ∨ u.query ≠ []) := fun h => h.elim hf fun h => h hqq
      rw [if_neg ht, hqq, hf', List.append_nil, hpc]
      rw [if_neg (by rintro ⟨_, h⟩; cases h), (takeWhile_all pre hpb).1, (takeWhile_all pre hpb).2]
      rfl
    · rw [if_pos (Or.inr hqq), hf']
      have h1 : ¬ ((pre ++ 63 :: u.query).getLast? = some 63 ∧ (pre ++ 63 :: u.query).count 63 = 1) := by
        rintro ⟨h1, h2⟩
        rw [List.count_append, hpc, List.count_cons_self] at h2
        have h3 : u.query.count 63 = 0 := by omega
        rw [List.getLast?_append, List.getLast?_cons] at h1
        have h4 : u.query.getLast? = some 63 := by
          cases hl : u.query.getLast? with
          | none => exact absurd (List.getLast?_eq_none_iff.1 hl) hqq
          | some x => rw [hl] at h1; simpa using h1
        exact List.count_eq_zero.1 h3 (List.mem_of_getLast? h4)
      rw [if_neg h1, (takeWhile_app pre 63 _ hpb (by decide)).1, (takeWhile_app pre 63 _ hpb (by decide)).2]
      rfl

theorem getScheme_slash (s : B) (h : s.head? = some 47) : getScheme s [] s = some ([], s) := by
  cases s with
  | nil => cases h
  | cons c s =>
    injection h with h; subst h
    unfold getScheme
    simp

theorem split_join : ∀ s : B, (split s).flatMap (47 :: ·) = 47 :: s
  | [] => rfl
  | c :: s => by
    have ih := split_join s
    unfold split
    split
    · rename_i h; subst h; rw [List.flatMap_cons, ih]; rfl
    · cases hs : split s with
      | nil => rw [hs] at ih; simp at ih
      | cons e l =>
        rw [hs, List.flatMap_cons] at ih
        simp only [List.flatMap_cons, List.cons_append] at ih ⊢
        injection ih with _ ih
        rw [ih]

theorem loop_plain (l : List B) (dst : B) (h : ∀ x ∈ l, x ≠ [46] ∧ x ≠ [46, 46]) : resolveLoop dst false l = dst ++ l.flatMap (47 :: ·) := by
  induction l generalizing dst with
  | nil => simp [resolveLoop]
  | cons e l ih =>
    have he := h e (List.mem_cons_self ..)
    unfold resolveLoop
    rw [if_neg he.1, if_neg he.2, ih _ fun x hx => h x (List.mem_cons_of_mem _ hx)]
    simp

/-- A path without dots is not changed. -/
theorem resolve_plain (base ref : B) (h : ref.head? = some 47) (hd : NoDots ref) : resolvePath base ref = ref := by
  cases ref with
  | nil => cases h
  | cons c s =>
    injection h with h; subst h
    have hsp : split (47 :: s) = [] :: split s := by
      conv => lhs; unfold split
      rw [if_pos rfl]
    have hl : resolveLoop [] true (split (47 :: s)) = 47 :: s := by
      rw [hsp]
      unfold resolveLoop
      rw [if_neg (by decide), if_neg (by decide)]
      rw [loop_plain _ _ fun x hx => hd x (by rw [hsp]; exact List.mem_cons_of_mem _ hx), split_join]
      rfl
    have hlast : ¬ ((split (47 :: s)).getLast? = some [46] ∨ (split (47 :: s)).getLast? = some [46, 46]) := by
      rintro (h | h)
      · exact (hd _ (List.mem_of_getLast? h)).1 rfl
      · exact (hd _ (List.mem_of_getLast? h)).2 rfl
    unfold resolvePath
    simp only [List.head?_cons, if_true, hl, if_neg hlast, reduceCtorEq, if_false]

theorem tail_chars (u : URL) (P : UInt8 → Prop) (h63 : P 63) (hq : ∀ c ∈ u.query, P c) : ∀ c ∈ u.tail, P c := by
  unfold URL.tail
  intro c hc
  split at hc
  · rcases List.mem_cons.1 hc with rfl | hc
    · exact h63
    · exact hq c hc
  · cases hc

theorem no_ctl (s : B) (h : ∀ c ∈ s, ctl c = false) : s.any ctl = false := by
  cases hs : s.any ctl with
  | false => rfl
  | true =>
    obtain ⟨c, hc, h2⟩ := List.any_eq_true.1 hs
    rw [h c hc] at h2; cases h2

/-- A url that is a path and a query. -/
structure Relative (u : URL) : Prop where
  bare : u.scheme = [] ∧ u.opaq = [] ∧ u.host = []
  written : Written u
  asked : Asked u
  query : ∀ c ∈ u.query, ctl c = false

theorem head_app {a b : B} (h : a.head? = some 47) : (a ++ b).head? = some 47 := by
  cases a with
  | nil => cases h
  | cons c a => exact h

theorem take2_app {a b : B} (h : a.take 2 ≠ [47, 47]) (ha : a.head? = some 47) (hb : b.head? ≠ some 47) : (a ++ b).take 2 ≠ [47, 47] := by
  match a, ha, h with
  | [c], ha, _ =>
    intro h2
    cases b with
    | nil => cases h2
    | cons d b => simp at h2; simp [h2.2] at hb
  | c :: d :: a, _, h => simpa using h

theorem relative_text (u : URL) (h : Relative u) : u.text = u.escaped ++ u.tail := by
  obtain ⟨h1, h2, h3⟩ := h.bare
  unfold URL.text
  have hs := h.written.slash
  have hc : (u.escaped.takeWhile (· ≠ 47)).contains 58 = false := by
    cases he : u.escaped with
    | nil => rfl
    | cons c s => rw [he] at hs; injection hs with hs; subst hs; rfl
  simp only [h1, h2, h3, hs, hc, ne_eq, not_true_eq_false, or_self, if_false, if_true, and_false, List.nil_append, Bool.false_eq_true]

/-- What is sent can be read, by either parser. -/
theorem parse_relative (A : B → Option B) (via : Bool) (u : URL) (h : Relative u) (hn : via = false → u.escaped.take 2 ≠ [47, 47]) :
    ∃ v, parse A via (u.escaped ++ u.tail) = some v ∧ Relative v ∧ v.path = u.path ∧ v.escaped = u.escaped ∧ v.force = u.force ∧ v.query = u.query := by
  obtain ⟨r, hr, hv⟩ := set_again u h.written
  have hval := (valid_iff _).1 h.written.valid
  have hhead : (u.escaped ++ u.tail).head? = some 47 := head_app h.written.slash
  have hctl : (u.escaped ++ u.tail).any ctl = false := no_ctl _ fun c hc => (List.mem_append.1 hc).elim (fun hc => (okay_not c (hval c hc)).2.2) (tail_chars u (ctl · = false) (by decide) h.query c)
  have hcut : cutQuery (u.escaped ++ u.tail) = (u.escaped, u.force, u.query) := cut_tail _ u (fun c hc => (okay_not c (hval c hc)).1) h.asked
  have hv' := hv { force := u.force, query := u.query, path := u.path, raw := r } rfl rfl
  refine ⟨{ force := u.force, query := u.query, path := u.path, raw := r }, ?_, ?_, rfl, hv'.1, rfl, rfl⟩
  · have hne : ¬ (u.escaped ++ u.tail = []) := by intro h; rw [h] at hhead; cases hhead
    have hns : ¬ (u.escaped ++ u.tail = [42]) := by intro h; rw [h] at hhead; cases hhead
    unfold parse
    rw [if_neg (by rw [hctl]; rintro (h | h); exact absurd h (by decide); exact hne h.2), if_neg hns, getScheme_slash _ hhead]
    simp only [hcut, h.written.slash, ne_eq, not_true_eq_false, false_and, if_false, false_or]
    rw [if_neg (fun hh => hn hh.1.1 hh.2), hr]
    rfl
  · exact ⟨⟨rfl, rfl, rfl⟩, hv'.2, h.asked, h.query⟩

theorem prefix_head {a s : B} (h : a <+: s) (hne : a ≠ []) : a.head? = s.head? := by
  obtain ⟨t, rfl⟩ := h
  cases a with
  | nil => exact absurd rfl hne
  | cons c a => rfl

theorem cut_facts (s : B) (h : s.head? = some 47) (h2 : s.take 2 ≠ [47, 47]) : (cutQuery s).1.head? = some 47 ∧ (cutQuery s).1.take 2 ≠ [47, 47] ∧ ((cutQuery s).2.1 = true → (cutQuery s).2.2 = []) ∧
    ∀ c ∈ (cutQuery s).2.2, c ∈ s.dropWhile (· ≠ 63) := by
  have key : ∀ a : B, a <+: s → a ≠ [] → a.head? = some 47 ∧ a.take 2 ≠ [47, 47] := fun a ha hne => by
    refine ⟨by rw [prefix_head ha hne]; exact h, fun hh => h2 ?_⟩
    obtain ⟨t, rfl⟩ := ha
    rw [List.take_append_of_le_length (by have := congrArg List.length hh; simp at this; omega)]
    exact hh
  cases s with
  | nil => cases h
  | cons c s =>
    injection h with h; subst h
    unfold cutQuery
    split
    · rename_i hc
      have := key ((47 :: s).dropLast) (List.dropLast_prefix _) (by
        cases s with
        | nil => exact absurd hc.1 (by decide)
        | cons d s => simp)
      exact ⟨this.1, this.2, fun _ => rfl, fun _ hc => nomatch hc⟩
    · have := key ((47 :: s).takeWhile (· ≠ 63)) (List.takeWhile_prefix _) (by simp)
      exact ⟨this.1, this.2, (nomatch ·), fun c hc => List.mem_of_mem_drop hc⟩

theorem parse_tag (A : B → Option B) (tag : B) (u : URL) (hr : Rooted tag) (hu : parse A false tag = some u) : Relative u ∧ ∀ c ∈ u.query, c ≠ 32 := by
  obtain ⟨h1, h2, h3⟩ := hr
  obtain ⟨f1, f2, f3, f4⟩ := cut_facts tag h1 h2
  have hns : ¬ (tag = [42]) := by intro h; rw [h] at h1; cases h1
  unfold parse at hu
  by_cases hctl : tag.any ctl = true ∨ false = true ∧ tag = []
  · rw [if_pos hctl] at hu; cases hu
  rw [if_neg hctl, if_neg hns, getScheme_slash _ h1] at hu
  simp only [f1, ne_eq, not_true_eq_false, false_and, if_false, false_or, f2, and_false] at hu
  obtain ⟨⟨p, r⟩, hp, rfl⟩ := Option.map_eq_some_iff.1 hu
  have hsub : ∀ c ∈ (cutQuery tag).2.2, ctl c = false := fun c hc => by
    cases hb : ctl c with
    | false => rfl
    | true => exact absurd (Or.inl (List.any_eq_true.2 ⟨c, (List.dropWhile_sublist _).subset (f4 c hc), hb⟩)) hctl
  exact ⟨⟨⟨rfl, rfl, rfl⟩, written _ _ hp f1, f3, hsub⟩, fun c hc => h3 c (f4 c hc)⟩

theorem getScheme_name (all name rest : B) (hn : ∀ c ∈ name, (97 ≤ c && c ≤ 122) = true) (acc : B) (hne : acc ++ name ≠ []) :
    getScheme all acc (name ++ 58 :: rest) = some (acc.reverse ++ name, rest) := by
  induction name generalizing acc with
  | nil =>
    have : acc ≠ [] := by simpa using hne
    show getScheme all acc (58 :: rest) = _
    unfold getScheme
    rw [if_neg (by decide), if_neg (by decide), if_pos rfl, if_neg this]
    simp
  | cons c name ih =>
    show getScheme all acc (c :: (name ++ 58 :: rest)) = _
    unfold getScheme
    rw [if_pos (by rw [hn c (List.mem_cons_self ..)]; rfl), ih (fun x hx => hn x (List.mem_cons_of_mem _ hx)) (c :: acc) (by simp)]
    simp

/-- An absolute url is read as it was. -/
theorem parse_absolute (A : B → Option B) (b u : URL) (hb : Base A b) (h1 : u.scheme = b.scheme) (h2 : u.host = b.host) (h3 : u.opaq = []) (hw : Written u) (ha : Asked u) (hq : ∀ c ∈ u.query, ctl c = false) :
    ∃ v, parse A false u.text = some v ∧ v.scheme = b.scheme ∧ v.host = b.host ∧ v.opaq = [] ∧ Written v ∧ v.path = u.path ∧ v.escaped = u.escaped ∧ v.force = u.force ∧ v.query = u.query := by
  obtain ⟨r, hr, hv⟩ := set_again u hw
  have hval := (valid_iff _).1 hw.valid
  have hsch : b.scheme ≠ [] ∧ (∀ c ∈ b.scheme, (97 ≤ c && c ≤ 122) = true) ∧ (∀ c ∈ b.scheme, ctl c = false) ∧ lower b.scheme = b.scheme ∧ b.scheme.head? = some 104 := by
    rcases hb.scheme with h | h <;> rw [h] <;> decide
  have hv' := hv { scheme := b.scheme, host := b.host, force := u.force, query := u.query, path := u.path, raw := r } rfl rfl
  have htext : u.text = b.scheme ++ 58 :: (([47, 47] ++ b.host ++ u.escaped) ++ u.tail) := by
    unfold URL.text
    simp only [h1, h2, h3, hw.slash, hsch.1, hb.host.1, ne_eq, not_true_eq_false, not_false_eq_true, true_or, if_false, if_true, and_false, false_and]
    rw [if_neg (by simp)]
    simp
  have hctl : u.text.any ctl = false := no_ctl _ fun c hc => by
    rw [htext] at hc
    rcases List.mem_append.1 hc with hc | hc
    · exact hsch.2.2.1 c hc
    · rcases List.mem_cons.1 hc with rfl | hc
      · decide
      · rcases List.mem_append.1 hc with hc | hc
        · rcases List.mem_append.1 hc with hc | hc
          · rcases List.mem_append.1 hc with hc | hc
            · have : c = 47 := by simpa using hc
              rw [this]; decide
            · exact (hb.chars c hc).2.2.2
          · exact (okay_not c (hval c hc)).2.2
        · exact tail_chars u (ctl · = false) (by decide) hq c hc
  have hcut : cutQuery (([47, 47] ++ b.host ++ u.escaped) ++ u.tail) = ([47, 47] ++ b.host ++ u.escaped, u.force, u.query) := cut_tail _ u (fun c hc => by
    rcases List.mem_append.1 hc with hc | hc
    · rcases List.mem_append.1 hc with hc | hc
      · have : c = 47 := by simpa using hc
        rw [this]; decide
      · exact (hb.chars c hc).2.1
    · exact (okay_not c (hval c hc)).1) ha
  have hhost : (b.host ++ u.escaped).takeWhile (· ≠ 47) = b.host ∧ (b.host ++ u.escaped).dropWhile (· ≠ 47) = u.escaped := by
    have hs := hw.slash
    cases he : u.escaped with
    | nil => rw [he] at hs; cases hs
    | cons c s =>
      rw [he] at hs; injection hs with hs; subst hs
      exact takeWhile_app _ _ _ (fun c hc => decide_eq_true (hb.chars c hc).1) (by decide)
  refine ⟨{ scheme := b.scheme, host := b.host, force := u.force, query := u.query, path := u.path, raw := r }, ?_, rfl, rfl, rfl, hv'.2, rfl, hv'.1, rfl, rfl⟩
  have hns : ¬ (u.text = [42]) := by
    intro h
    have hh := congrArg List.head? h
    rw [htext] at hh
    cases hs : b.scheme with
    | nil => exact hsch.1 hs
    | cons c s => rw [hs] at hh; have := hsch.2.2.2.2; rw [hs] at this; simp at hh this; rw [this] at hh; exact absurd hh (by decide)
  unfold parse
  rw [if_neg (by rw [hctl]; rintro (h | h); exact absurd h (by decide); exact absurd h.1 (by decide)), if_neg hns]
  have hg : getScheme u.text [] u.text = some (b.scheme, ([47, 47] ++ b.host ++ u.escaped) ++ u.tail) := by
    conv => lhs; arg 3; rw [htext]
    rw [getScheme_name _ _ _ hsch.2.1 [] (by simpa using hsch.1)]; rfl
  rw [hg]
  simp only [hcut]
  simp only [hsch.1, hsch.2.2.2.1, List.cons_append, List.nil_append, List.head?_cons, ne_eq, not_true_eq_false, not_false_eq_true, false_and, if_false, true_or, true_and, List.take_succ_cons, List.take_zero, if_true,
    List.drop_succ_cons, List.drop_zero]
  rw [hhost.1, hhost.2, hb.host.2, hr]

/-! ### C180 -/

/-- C180: an API whose url is a path without dots is called where the server registers it, at the host of `BaseUrl`. -/
theorem C180_arrives_partial (A : B → Option B) (b : URL) (hb : Base A b) (tag : B) (u : URL) (hr : Rooted tag) (hu : parse A false tag = some u) (hn : u.escaped.take 2 ≠ [47, 47])
    (hd : NoDots u.escaped) : arrives A (some b) tag = some (b.host, u.path) ∧ registered A tag = some u.path := by
  obtain ⟨hrel, hsp⟩ := parse_tag A tag u hr hu
  refine ⟨?_, by unfold registered; rw [hu]; rfl⟩
  obtain ⟨v, p1, p2, p3, p4, p5, p6⟩ := parse_relative A false u hrel fun _ => hn
  obtain ⟨v1, v2, v3⟩ := p2.bare
  obtain ⟨r, hr, hv⟩ := set_again v p2.written
  have hres : resolve b v = { scheme := b.scheme, host := b.host, force := v.force, query := v.query, path := v.path, raw := r } := by
    have hne : v.path ≠ [] := fun h => by
      have := unescape_slash _ _ p2.written.reads p2.written.slash
      rw [h] at this; cases this
    unfold resolve
    simp only [v1, v2, v3, hne, ne_eq, not_true_eq_false, or_self, if_false, if_true, false_and]
    rw [resolve_plain _ _ p2.written.slash (by rw [p4]; exact hd)]
    unfold URL.withPath
    rw [hr]
  have hv' := hv (resolve b v) (by rw [hres]) (by rw [hres])
  obtain ⟨w, q1, q2, q3, q4, q5, q6, q7, q8, q9⟩ := parse_absolute A b (resolve b v) hb (by rw [hres]) (by rw [hres]) (by rw [hres]) hv'.2 (by rw [hres]; exact p2.asked) (by rw [hres]; exact p2.query)
  have ht : target A (some b) tag = some w := by
    unfold target
    rw [hu, Option.bind_some, relative_text u hrel, p1]
    exact q1
  have hwr : Relative { path := w.path, raw := w.raw, force := w.force, query := w.query } := by
    refine ⟨⟨rfl, rfl, rfl⟩, ⟨q5.slash, q5.valid, q5.reads⟩, ?_, ?_⟩
    · show w.force = true → w.query = []
      rw [q8, q9, hres]; exact p2.asked
    · show ∀ c ∈ w.query, _
      rw [q9, hres]; exact p2.query
  obtain ⟨x, x1, x2, x3, x4, x5, x6⟩ := parse_relative A true _ hwr (nomatch ·)
  have huri : w.uri = w.escaped ++ w.tail := by
    unfold URL.uri
    have : w.escaped ≠ [] := fun h => by have := q5.slash; rw [h] at this; cases this
    rw [if_pos q4, if_neg this]
  have hspace : w.uri.contains 32 = false := by
    cases hc : w.uri.contains 32 with
    | false => rfl
    | true =>
      rw [huri] at hc
      have hc : (32 : UInt8) ∈ w.escaped ++ w.tail := by simpa using hc
      rcases List.mem_append.1 hc with hc | hc
      · exact absurd rfl (okay_not 32 ((valid_iff _).1 q5.valid 32 hc)).2.1
      · refine absurd rfl (tail_chars w (· ≠ 32) (by decide) ?_ 32 hc)
        rw [q9, hres]
        show ∀ c ∈ v.query, _
        rw [p6]; exact hsp
  unfold arrives
  rw [ht, Option.bind_some, q2, q3, if_pos ⟨hb.scheme, hb.host.1, hspace⟩, huri]
  have : parse A true (w.escaped ++ w.tail) = some x := x1
  rw [this, Option.map_some, x3]
  show some (b.host, w.path) = _
  rw [q6, hres]
  show some (b.host, v.path) = _
  rw [p3]

/-- The path begins with a slash, no element is `.` or `..`, and none but the last is empty. -/
def Clean (p : B) : Prop := p.head? = some 47 ∧ NoDots p ∧ ∀ x ∈ (split p).tail.dropLast, x ≠ []

theorem split_elem : ∀ (s e : B), e ∈ split s → ∀ c ∈ e, c ≠ 47
  | [], e, he, c, hc => by
    have : e = [] := by simpa [split] using he
    rw [this] at hc; cases hc
  | d :: s, e, he, c, hc => by
    have ih := split_elem s
    unfold split at he
    split at he
    · rcases List.mem_cons.1 he with rfl | he
      · cases hc
      · exact ih e he c hc
    · rename_i hd
      cases hs : split s with
      | nil =>
        rw [hs] at he
        have : e = [d] := by simpa using he
        rw [this] at hc
        have : c = d := by simpa using hc
        rw [this]; exact hd
      | cons x l =>
        rw [hs] at he
        rcases List.mem_cons.1 he with rfl | he
        · rcases List.mem_cons.1 hc with rfl | hc
          · exact hd
          · exact ih x (by rw [hs]; exact List.mem_cons_self ..) c hc
        · exact ih e (by rw [hs]; exact List.mem_cons_of_mem _ he) c hc

theorem clean_plain (l : List B) (acc : List B) (h : ∀ x ∈ l, x ≠ [] ∧ x ≠ [46] ∧ x ≠ [46, 46]) (rest : List B) : cleanElems acc (l ++ rest) = cleanElems (l.reverse ++ acc) rest := by
  induction l generalizing acc with
  | nil => rfl
  | cons e l ih =>
    obtain ⟨h1, h2, h3⟩ := h e (List.mem_cons_self ..)
    show cleanElems acc (e :: (l ++ rest)) = _
    conv => lhs; unfold cleanElems
    rw [if_neg (fun h => h.elim h1 h2), if_neg h3, ih _ fun x hx => h x (List.mem_cons_of_mem _ hx)]
    simp

/-- Such paths are handled where they are. -/
theorem clean_path (p : B) (h : Clean p) : cleanPath p = p := by
  obtain ⟨h1, h2, h3⟩ := h
  cases p with
  | nil => cases h1
  | cons c s =>
    injection h1 with h1; subst h1
    have hsp : split (47 :: s) = [] :: split s := by
      conv => lhs; unfold split
      rw [if_pos rfl]
    have hj := split_join s
    have hne : split s ≠ [] := by intro h; rw [h] at hj; simp at hj
    rw [hsp] at h3
    simp only [List.tail_cons] at h3
    have hcat := List.dropLast_concat_getLast hne
    generalize hz : (split s).getLast hne = z at hcat
    generalize (split s).dropLast = init at h3 hcat
    have hz' : z ∈ split s := by rw [← hcat]; simp
    have hin : ∀ x ∈ init, x ≠ [] ∧ x ≠ [46] ∧ x ≠ [46, 46] := fun x hx =>
      ⟨h3 x hx, h2 x (by rw [hsp, ← hcat]; simp [hx])⟩
    have hce : cleanElems [] (split (47 :: s)) = if z = [] then init else init ++ [z] := by
      rw [hsp, ← hcat]
      show cleanElems [] ([] :: (init ++ [z])) = _
      unfold cleanElems
      rw [if_pos (Or.inl rfl), clean_plain init [] hin]
      unfold cleanElems
      by_cases hzz : z = []
      · rw [if_pos (Or.inl hzz), if_pos hzz]; simp [cleanElems]
      · have := h2 z (by rw [hsp]; exact List.mem_cons_of_mem _ hz')
        rw [if_neg (fun h => h.elim hzz this.1), if_neg this.2, if_neg hzz]; simp [cleanElems]
    rw [← hcat] at hj
    unfold cleanPath
    simp only [hce]
    by_cases hzz : z = []
    · rw [if_pos hzz]
      rw [hzz] at hj
      by_cases hi : init = []
      · rw [if_pos hi]; rw [hi] at hj; simpa using hj
      · rw [if_neg hi, if_pos (by rw [← hj]; simp), ← hj]; simp
    · rw [if_neg hzz, if_neg (by simp), hj]
      have hl : (47 :: s).getLast? ≠ some 47 := by
        rw [← hj]
        intro h
        rw [List.flatMap_append, List.getLast?_append] at h
        cases hg : z.getLast? with
        | none => exact hzz (List.getLast?_eq_none_iff.1 hg)
        | some x =>
          simp [List.getLast?_cons, hg] at h
          exact split_elem s z hz' x (List.mem_of_getLast? hg) h
      rw [if_neg hl, List.append_nil]

/-- C180: and if it is clean, the handler registered there is the one that is looked for. -/
theorem C180_routed_partial (A : B → Option B) (b : URL) (hb : Base A b) (tag : B) (u : URL) (hr : Rooted tag) (hu : parse A false tag = some u) (hn : u.escaped.take 2 ≠ [47, 47])
    (hd : NoDots u.escaped) (hc : Clean u.path) : ∃ p, registered A tag = some p ∧ arrives A (some b) tag = some (b.host, p) ∧ routed p = .inr p := by
  obtain ⟨h1, h2⟩ := C180_arrives_partial A b hb tag u hr hu hn hd
  exact ⟨u.path, h2, h1, by unfold routed; rw [if_pos (clean_path _ hc)]⟩

/-- C180: without `BaseUrl` a path can not be called: that is an error. -/
theorem C180_nobase (A : B → Option B) (tag : B) (u : URL) (hr : Rooted tag) (hu : parse A false tag = some u) (hn : u.escaped.take 2 ≠ [47, 47]) : arrives A none tag = none := by
  obtain ⟨hrel, _⟩ := parse_tag A tag u hr hu
  obtain ⟨v, p1, p2, _⟩ := parse_relative A false u hrel fun _ => hn
  have ht : target A none tag = some v := by
    unfold target
    rw [hu, Option.bind_some, Option.bind_some, relative_text u hrel, p1]
  unfold arrives
  rw [ht, Option.bind_some, p2.bare.1, if_neg (by rintro ⟨h | h, _⟩ <;> exact absurd h (by decide))]

/-- C180 is violated: the path of `BaseUrl` is ignored, so that servers below a path can not be called. -/
theorem C180_base_violated (A : B → Option B) (b : URL) (tag : B) (u : URL) (hr : Rooted tag) (hu : parse A false tag = some u) (hn : u.escaped.take 2 ≠ [47, 47]) (path raw query : B) :
    arrives A (some { b with path := path, raw := raw, query := query }) tag = arrives A (some b) tag := by
  obtain ⟨hrel, _⟩ := parse_tag A tag u hr hu
  obtain ⟨v, p1, p2, _⟩ := parse_relative A false u hrel fun _ => hn
  have hres : resolve { b with path := path, raw := raw, query := query } v = resolve b v := by
    obtain ⟨v1, v2, v3⟩ := p2.bare
    have hne : v.path ≠ [] := fun h => by
      have := unescape_slash _ _ p2.written.reads p2.written.slash
      rw [h] at this; cases this
    have hee : v.escaped ≠ [] := fun h => by have := p2.written.slash; rw [h] at this; cases this
    unfold resolve resolvePath
    simp only [v1, v2, v3, hne, hee, p2.written.slash, ne_eq, not_true_eq_false, or_self, if_false, if_true, false_and]
  unfold arrives target
  simp only [hu, Option.bind_some, relative_text u hrel, p1, Option.map_some, hres]

/-- C180 is violated: an API whose path is not clean (`/a//b`) is registered and called, but no request is ever handled there: the multiplexer answers 301 to another path, which is
followed with GET and without the inputs (`C179_inputs_violated`). -/
theorem C180_unclean_violated (A : B → Option B) (b : URL) (hb : Base A b) (tag : B) (u : URL) (hr : Rooted tag) (hu : parse A false tag = some u) (hn : u.escaped.take 2 ≠ [47, 47])
    (hd : NoDots u.escaped) (hc : cleanPath u.path ≠ u.path) : registered A tag = some u.path ∧ arrives A (some b) tag = some (b.host, u.path) ∧ routed u.path = .inl (cleanPath u.path) ∧
    ∀ q, routed q ≠ .inr u.path := by
  obtain ⟨h1, h2⟩ := C180_arrives_partial A b hb tag u hr hu hn hd
  refine ⟨h2, h1, by unfold routed; rw [if_neg hc], fun q hq => ?_⟩
  unfold routed at hq
  split at hq
  · rename_i h; injection hq with hq; subst hq; exact hc h
  · cases hq

/-! ### concrete cases -/

/-- `http://h:80/v1/` -/
def base1 : URL := { scheme := asc "http", host := asc "h:80", path := asc "/v1/" }

theorem base1_is : Base some base1 := ⟨Or.inl rfl, ⟨by decide, rfl⟩, by decide⟩

/-- C180 is violated: a path with dots is registered as it is, and called without them. -/
theorem C180_dots_violated : ∃ b, Base some b ∧ (∃ tag, Rooted tag ∧ registered some tag = some (asc "/a/../b") ∧ arrives some (some b) tag = some (b.host, asc "/b")) ∧
    ∃ tag, Rooted tag ∧ registered some tag = some (asc "/a/./b") ∧ arrives some (some b) tag = some (b.host, asc "/a/b") :=
  ⟨base1, base1_is, ⟨asc "/a/../b", by unfold Rooted; decide +kernel, by decide +kernel, by decide +kernel⟩, asc "/a/./b", by unfold Rooted; decide +kernel, by decide +kernel, by decide +kernel⟩

/-- `C180_routed_partial` applies to the urls of the example, to escapes and to spaces. -/
example : Rooted (asc "/api/v1/get") ∧ ∃ u, parse some false (asc "/api/v1/get") = some u ∧ u.escaped.take 2 ≠ [47, 47] ∧ NoDots u.escaped ∧ Clean u.path ∧ u.path = asc "/api/v1/get" := by
  unfold Rooted NoDots Clean NoDots
  exact ⟨by decide +kernel, { path := asc "/api/v1/get" }, by decide +kernel⟩

example : arrives some (some base1) (asc "/a b%2Fc?x=1") = some (asc "h:80", asc "/a b/c") ∧ (target some (some base1) (asc "/a b%2Fc?x=1")).map URL.text = some (asc "http://h:80/a%20b/c?x=1") ∧
    (target some (some base1) (asc "/a%2fb?")).map URL.text = some (asc "http://h:80/a%2fb?") := by decide +kernel

/-- A request for a path with dots is redirected to where they lead. -/
example : routed (asc "/a/./b/../c") = .inl (asc "/a/c") ∧ routed (asc "/../c/") = .inl (asc "/c/") ∧ routed (asc "/a/c") = .inr (asc "/a/c") := by decide +kernel

/-- Escapes are written with capital digits. -/
example : escape [195, 169, 47, 32, 60] = asc "%C3%A9/%20%3C" := by decide +kernel

/-- Urls that are not a path: below `BaseUrl`, where the server takes the first element for a host; or without it. -/
example : arrives some (some base1) (asc "get/x") = some (asc "h:80", asc "/v1/get/x") ∧ registered some (asc "get/x") = some (asc "get/x") ∧
    arrives some (some base1) (asc "https://other/x") = some (asc "other", asc "/x") ∧ arrives some (some base1) (asc "/x?a b") = none ∧ arrives some none (asc "/x") = none := by decide +kernel

/-- `C180_unclean_violated` applies to `/a//b`. -/
example : Rooted (asc "/a//b") ∧ ∃ u, parse some false (asc "/a//b") = some u ∧ u.escaped.take 2 ≠ [47, 47] ∧ NoDots u.escaped ∧ cleanPath u.path ≠ u.path ∧ routed u.path = .inl (asc "/a/b") := by
  unfold Rooted NoDots
  exact ⟨by decide +kernel, { path := asc "/a//b" }, by decide +kernel⟩

/-- Schemes are lowered; urls with a control character are refused. -/
example : (parse some false (asc "HTTPAZ://h/x")).map URL.text = some (asc "httpaz://h/x") ∧ parse some false (asc "/a" ++ [10]) = none ∧ parse some false (asc "/a" ++ [127]) = none ∧
    (parse some false (asc "/a ")).isSome = true := by decide +kernel

/-- What schemes are made of; a colon in the first element; a request line that is no path; a url without path and query has the query of `BaseUrl`. -/
example : (parse some false (asc "a-b.c+09:x")).map URL.scheme = some (asc "a-b.c+09") ∧ parse some false (asc "1:2") = none ∧ (parse some false (asc "1/2:3")).isSome = true ∧
    parse some true (asc "a/b") = none ∧ (resolve { scheme := asc "http", host := asc "h", path := asc "/v", query := asc "q=1" } {}).query = asc "q=1" ∧
    (resolve { scheme := asc "http", host := asc "h", path := asc "/v", query := asc "q=1" } { force := true }).query = [] := by decide +kernel

/-- Request lines of urls without path, and of opaque ones. -/
example : URL.uri { scheme := asc "http", host := asc "h" } = asc "/" ∧ URL.uri { scheme := asc "http", opaq := asc "h/x" } = asc "h/x" ∧
    URL.uri { scheme := asc "http", opaq := asc "//h/x" } = asc "http://h/x" := by decide +kernel

end Verif.Http.Address

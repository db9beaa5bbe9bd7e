import Verif.Prom.Props
import Verif.Prom.PrintProps
/-!
# What a scraper reads (C112), and the shape of sample lines (C106)

The reader is written from the description of the Prometheus text format, not from the printing code.
-/
set_option autoImplicit false
namespace Verif.Prom
open Verif.Strconv Verif.Enc

/-! ### a reader of the text format -/

/-- Characters of metric and label names. -/
def nameChar (c : Char) : Bool := c.isAlphanum || c = '_' || c = ':'

/-- The longest prefix of name characters, and the rest. -/
def readName : Str → Str × Str
  | [] => ([], [])
  | c :: r => if nameChar c then (c :: (readName r).1, (readName r).2) else ([], c :: r)

/-- A label value, after its opening quote: up to the closing quote; the escapes are `\\`, `\"` and `\n`. -/
def readValue : Str → Option (Str × Str)
  | [] => none
  | [c] => if c = '"' then some ([], []) else none
  | c :: d :: r =>
    if c = '"' then some ([], d :: r)
    else if c = '\\' then
      if d = '\\' ∨ d = '"' then (readValue r).map fun p => (d :: p.1, p.2)
      else if d = 'n' then (readValue r).map fun p => ('\n' :: p.1, p.2)
      else none
    else (readValue (d :: r)).map fun p => (c :: p.1, p.2)

/-- The labels, after the opening brace: at most so many. -/
def readLabels : Nat → Str → Option (List (Str × Str) × Str)
  | 0, _ => none
  | n + 1, s =>
    match readName s with
    | ([], _) => none
    | (k, '=' :: '"' :: r) =>
      match readValue r with
      | some (v, ',' :: r) => (readLabels n r).map fun p => ((k, v) :: p.1, p.2)
      | some (v, '}' :: r) => some ([(k, v)], r)
      | _ => none
    | _ => none

/-- The value of a sample: a space, then everything up to the end of the line, which must be the only one. -/
def readNumber (s : Str) : Option Str :=
  match s with
  | ' ' :: r => if r.getLast? = some '\n' ∧ '\n' ∉ r.dropLast then some r.dropLast else none
  | _ => none

/-- A sample: its name, labels and value. -/
def readSample (s : Str) : Option (Str × List (Str × Str) × Str) :=
  match readName s with
  | ([], _) => none
  | (name, '{' :: r) => (readLabels r.length r).bind fun p => (readNumber p.2).map fun v => (name, p.1, v)
  | (name, r) => (readNumber r).map fun v => (name, [], v)

example : readSample (lit "hits_total{path=\"/a \\\"b\\\"\",code=\"200\"} 17\n") =
    some (lit "hits_total", [(lit "path", lit "/a \"b\""), (lit "code", lit "200")], lit "17") := by decide
example : readSample (lit "up 1\n") = some (lit "up", [], lit "1") := by decide
example : readSample (lit "# HELP up 1\n") = none := by decide
example : readSample (lit "up 1") = none ∧ readSample (lit "up 1\ndown 2\n") = none := by decide
example : readSample (lit "x{,le=\"1\"} 1\n") = none := by decide

/-! ### reading what is printed -/

/-- A usable name. -/
def ValidName (s : Str) : Prop := s ≠ [] ∧ ∀ c ∈ s, nameChar c = true

theorem readName_append (k : Str) (hk : ∀ c ∈ k, nameChar c = true) (c : Char) (r : Str) (hc : nameChar c = false) :
    readName (k ++ c :: r) = (k, c :: r) := by
  induction k with
  | nil => simp [readName, hc]
  | cons d k ih =>
    have := ih (fun c h => hk c (List.mem_cons_of_mem _ h))
    simp [readName, hk d (List.mem_cons_self ..), this]

/-- The text between the quotes is read as the value. -/
def ReadsAs (q v : Str) : Prop := ∀ r, readValue (q ++ '"' :: r) = some (v, r)

theorem readValue_plain (c : Char) (s : Str) (h1 : c ≠ '"') (h2 : c ≠ '\\') (hs : s ≠ []) :
    readValue (c :: s) = (readValue s).map fun p => (c :: p.1, p.2) := by
  cases s with
  | nil => exact absurd rfl hs
  | cons d r => simp [readValue, h1, h2]

theorem readValue_quote (r : Str) : readValue ('"' :: r) = some ([], r) := by
  cases r <;> simp [readValue]

theorem readsAs_raw (q : Str) (h : ∀ c ∈ q, c ≠ '"' ∧ c ≠ '\\') : ReadsAs q q := by
  intro r
  induction q with
  | nil => exact readValue_quote r
  | cons c q ih =>
    have ih := ih (fun c hc => h c (List.mem_cons_of_mem _ hc))
    have := h c (List.mem_cons_self ..)
    rw [List.cons_append, readValue_plain c _ this.1 this.2 (by simp), ih]
    rfl

/-- Values of printable characters and newlines are read back. -/
theorem readsAs_quoted (isPrint : Char → Bool) (hnl : isPrint '\n' = false) (s : Str) (h : ∀ c ∈ s, isPrint c = true ∨ c = '\n') :
    ReadsAs ((s.map Elt.rune).flatMap (escape isPrint)) s := by
  intro r
  induction s with
  | nil => exact readValue_quote r
  | cons c s ih =>
    have ih := ih (fun c hc => h c (List.mem_cons_of_mem _ hc))
    simp only [List.map_cons, List.flatMap_cons, List.append_assoc]
    by_cases h1 : c = '"'
    · subst h1; simp [escape, readValue, ih]
    by_cases h2 : c = '\\'
    · subst h2; simp [escape, readValue, ih]
    rcases h c (List.mem_cons_self ..) with hp | rfl
    · have : escape isPrint (.rune c) = [c] := by simp [escape, h1, h2, hp]
      rw [this, List.singleton_append, readValue_plain c _ h1 h2 (by simp), ih]
      rfl
    · have : escape isPrint (.rune '\n') = ['\\', 'n'] := by simp [escape, hnl, namedEscape]
      rw [this]
      simp [readValue, ih]

/-- Pairs joined by commas; the values are already escaped. -/
def joined : List (Str × Str) → Str
  | [] => []
  | [p] => p.1 ++ lit "=\"" ++ p.2 ++ lit "\""
  | p :: ps => p.1 ++ lit "=\"" ++ p.2 ++ lit "\"" ++ lit "," ++ joined ps

theorem readLabels_joined : ∀ (l : List (Str × Str × Str)) (n : Nat) (r : Str), l ≠ [] → l.length ≤ n →
    (∀ e ∈ l, ValidName e.1 ∧ ReadsAs e.2.1 e.2.2) →
    readLabels n (joined (l.map fun e => (e.1, e.2.1)) ++ '}' :: r) = some (l.map fun e => (e.1, e.2.2), r)
  | [], _, _, h, _, _ => absurd rfl h
  | [(k, q, v)], n, r, _, hn, h => by
    obtain ⟨⟨hk, hc⟩, hq⟩ := h _ (List.mem_cons_self ..)
    cases n with
    | zero => simp at hn
    | succ n =>
      have h1 : joined ([(k, q, v)].map fun e => (e.1, e.2.1)) ++ '}' :: r = k ++ '=' :: ('"' :: (q ++ '"' :: '}' :: r)) := by
        simp [joined, lit]
      rw [h1, readLabels, readName_append k hc '=' _ (by decide)]
      cases k with
      | nil => exact absurd rfl hk
      | cons a k => simp only [hq ('}' :: r)]; rfl
  | (k, q, v) :: e :: l, n, r, _, hn, h => by
    obtain ⟨⟨hk, hc⟩, hq⟩ := h _ (List.mem_cons_self ..)
    cases n with
    | zero => simp at hn
    | succ n =>
      have ih := readLabels_joined (e :: l) n r (by simp) (by simpa using hn) (fun x hx => h x (List.mem_cons_of_mem _ hx))
      have h1 : joined (((k, q, v) :: e :: l).map fun e => (e.1, e.2.1)) ++ '}' :: r =
          k ++ '=' :: ('"' :: (q ++ '"' :: ',' :: (joined ((e :: l).map fun e => (e.1, e.2.1)) ++ '}' :: r))) := by
        simp [joined, lit]
      rw [h1, readLabels, readName_append k hc '=' _ (by decide)]
      cases k with
      | nil => exact absurd rfl hk
      | cons a k => simp only [hq (',' :: _), ih]; rfl

/-- The labels as pairs with the values escaped. -/
def quotedPairs (isPrint : Char → Bool) (names vals : List Str) : List (Str × Str × Str) :=
  (names.zip vals).map fun e => (e.1, (e.2.map Elt.rune).flatMap (escape isPrint), e.2)

theorem stringifyFrom_joined (isPrint : Char → Bool) : ∀ (names vals : List Str), names.length = vals.length →
    stringifyFrom isPrint names (vals.map fun v => v.map Elt.rune) =
      (if names = [] then [] else ',' :: joined ((quotedPairs isPrint names vals).map fun e => (e.1, e.2.1)))
  | [], [], _ => rfl
  | [k], [v], _ => by simp [stringifyFrom, quote, quotedPairs, joined, lit]
  | k :: k' :: ks, v :: v' :: vs, h => by
    have ih := stringifyFrom_joined isPrint (k' :: ks) (v' :: vs) (by simpa using h)
    rw [List.map_cons, stringifyFrom, ih]
    simp [quotedPairs, joined, quote, lit]
  | [], _ :: _, h => by simp at h
  | _ :: _, [], h => by simp at h
  | [_], _ :: _ :: _, h => by simp at h
  | _ :: _ :: _, [_], h => by simp at h

/-- The label text of a series. -/
theorem stringify_joined (isPrint : Char → Bool) (names vals : List Str) (l : Str)
    (h : stringify isPrint names (vals.map fun v => v.map Elt.rune) = .ok l) :
    names.length = vals.length ∧ l = joined ((quotedPairs isPrint names vals).map fun e => (e.1, e.2.1)) := by
  unfold stringify at h
  by_cases hl : names.length = vals.length
  · refine ⟨hl, ?_⟩
    rw [stringifyFrom_joined isPrint names vals hl] at h
    simp only [List.length_map, hl, ne_eq, not_true_eq_false, if_false] at h
    by_cases hn : names = []
    · subst hn
      simp at h
      subst h
      simp [quotedPairs, joined]
    · rw [if_neg hn] at h
      injection h with h
      exact h.symm
  · simp [hl] at h

theorem readNumber_of (v : Str) (h : '\n' ∉ v) : readNumber (' ' :: (v ++ ['\n'])) = some v := by
  simp [readNumber, h]

theorem readSample_labelled (name : Str) (hname : ValidName name) (l : List (Str × Str × Str)) (hl : l ≠ [])
    (h : ∀ e ∈ l, ValidName e.1 ∧ ReadsAs e.2.1 e.2.2) (v : Str) (hv : '\n' ∉ v) :
    readSample (name ++ lit "{" ++ joined (l.map fun e => (e.1, e.2.1)) ++ lit "} " ++ v ++ lit "\n") =
      some (name, l.map (fun e => (e.1, e.2.2)), v) := by
  have h1 : name ++ lit "{" ++ joined (l.map fun e => (e.1, e.2.1)) ++ lit "} " ++ v ++ lit "\n" =
      name ++ '{' :: (joined (l.map fun e => (e.1, e.2.1)) ++ '}' :: (' ' :: (v ++ ['\n']))) := by simp [lit]
  have hlen : ∀ l : List (Str × Str × Str), l.length ≤ (joined (l.map fun e => (e.1, e.2.1))).length := by
    intro l
    induction l with
    | nil => simp
    | cons e l ih =>
      cases l with
      | nil => simp [joined, lit]; omega
      | cons e' l =>
        have h1 : (joined ((e :: e' :: l).map fun e => (e.1, e.2.1))).length = e.1.length + (2 + (e.2.1.length + (1 + (1 + (joined ((e' :: l).map fun e => (e.1, e.2.1))).length)))) := by
          simp [joined, lit]; omega
        rw [h1, List.length_cons]
        omega
  rw [h1, readSample, readName_append name hname.2 '{' _ (by decide)]
  have h2 := readLabels_joined l (joined (l.map fun e => (e.1, e.2.1)) ++ '}' :: (' ' :: (v ++ ['\n']))).length (' ' :: (v ++ ['\n'])) hl
    (by have := hlen l; simp only [List.length_append]; omega) h
  obtain ⟨hne, _⟩ := hname
  cases name with
  | nil => exact absurd rfl hne
  | cons a name => simp only [h2, Option.bind_some, readNumber_of v hv]; rfl

theorem readSample_plain (name : Str) (hname : ValidName name) (v : Str) (hv : '\n' ∉ v) :
    readSample (name ++ lit " " ++ v ++ lit "\n") = some (name, [], v) := by
  have h1 : name ++ lit " " ++ v ++ lit "\n" = name ++ ' ' :: (v ++ ['\n']) := by simp [lit]
  rw [h1, readSample, readName_append name hname.2 ' ' _ (by decide)]
  obtain ⟨hne, _⟩ := hname
  cases name with
  | nil => exact absurd rfl hne
  | cons a name => exact congrArg (Option.map fun v => (a :: name, [], v)) (readNumber_of v hv)

/-- Names and values the text format has a notation for. -/
structure Readable (isPrint : Char → Bool) (names vals : List Str) : Prop where
  /-- a line feed is not printable -/
  newline : isPrint '\n' = false
  names_ok : ∀ k ∈ names, ValidName k
  vals_ok : ∀ v ∈ vals, ∀ c ∈ v, isPrint c = true ∨ c = '\n'

theorem quotedPairs_ok {isPrint : Char → Bool} {names vals : List Str} (h : Readable isPrint names vals) :
    ∀ e ∈ quotedPairs isPrint names vals, ValidName e.1 ∧ ReadsAs e.2.1 e.2.2 := by
  intro e he
  simp only [quotedPairs, List.mem_map] at he
  obtain ⟨⟨k, v⟩, hkv, rfl⟩ := he
  exact ⟨h.names_ok k (List.of_mem_zip hkv).1, readsAs_quoted isPrint h.newline v (h.vals_ok v (List.of_mem_zip hkv).2)⟩

theorem quotedPairs_read (isPrint : Char → Bool) (names vals : List Str) :
    (quotedPairs isPrint names vals).map (fun e => (e.1, e.2.2)) = names.zip vals := by
  simp [quotedPairs, List.map_map, Function.comp_def]

theorem joined_eq_nil (l : List (Str × Str)) : joined l = [] ↔ l = [] := by
  cases l with
  | nil => simp [joined]
  | cons p ps => cases ps <;> simp [joined, lit]

/-- C112: a sample is read as the metric's name, the label names with the values they were observed with, and the value. -/
theorem C112_sample (isPrint : Char → Bool) (name : Str) (hname : ValidName name) (names vals : List Str) (h : Readable isPrint names vals) (l v : Str)
    (hl : stringify isPrint names (vals.map fun v => v.map Elt.rune) = .ok l) (hv : '\n' ∉ v) :
    readSample (sampleLine name l v) = some (name, names.zip vals, v) := by
  obtain ⟨hlen, rfl⟩ := stringify_joined isPrint names vals l hl
  unfold sampleLine
  by_cases hn : quotedPairs isPrint names vals = []
  · have hz : names.zip vals = [] := by rw [← quotedPairs_read isPrint, hn]; rfl
    rw [hn, if_pos (by simp [joined]), readSample_plain name hname v hv, hz]
  · rw [if_neg (by simpa [joined_eq_nil] using hn), readSample_labelled name hname _ hn (quotedPairs_ok h) v hv, quotedPairs_read]

theorem joined_append (l : List (Str × Str)) (p : Str × Str) :
    joined (l ++ [p]) = (if joined l = [] then [] else joined l ++ lit ",") ++ p.1 ++ lit "=\"" ++ p.2 ++ lit "\"" := by
  induction l with
  | nil => simp [joined]
  | cons e l ih =>
    have hne : joined (e :: l) ≠ [] := by simp [joined_eq_nil]
    rw [if_neg hne]
    cases l with
    | nil => simp [joined]
    | cons e' l =>
      have hne' : joined (e' :: l) ≠ [] := by simp [joined_eq_nil]
      rw [if_neg hne'] at ih
      have h1 : joined (e :: e' :: l ++ [p]) = e.1 ++ lit "=\"" ++ e.2 ++ lit "\"" ++ lit "," ++ joined (e' :: l ++ [p]) := by simp [joined]
      rw [h1, ih]
      simp [joined]

/-- C112: a bucket of a histogram is read with the labels of its series and, last, its bound under `le`. -/
theorem C112_bucket (isPrint : Char → Bool) (name : Str) (hname : ValidName (name ++ lit "_bucket")) (names vals : List Str)
    (h : Readable isPrint names vals) (l bound v : Str) (hl : stringify isPrint names (vals.map fun v => v.map Elt.rune) = .ok l)
    (hb : ∀ c ∈ bound, c ≠ '"' ∧ c ≠ '\\') (hv : '\n' ∉ v) :
    readSample (bucketLine name l bound v) = some (name ++ lit "_bucket", names.zip vals ++ [(lit "le", bound)], v) := by
  obtain ⟨hlen, rfl⟩ := stringify_joined isPrint names vals l hl
  have hq : ∀ e ∈ quotedPairs isPrint names vals ++ [(lit "le", bound, bound)], ValidName e.1 ∧ ReadsAs e.2.1 e.2.2 := by
    intro e he
    rw [List.mem_append] at he
    rcases he with he | he
    · exact quotedPairs_ok h e he
    · simp only [List.mem_cons, List.not_mem_nil, or_false] at he
      subst he
      exact ⟨⟨show lit "le" ≠ [] by decide, show ∀ c ∈ lit "le", nameChar c = true by decide⟩, readsAs_raw bound hb⟩
  have := readSample_labelled (name ++ lit "_bucket") hname (quotedPairs isPrint names vals ++ [(lit "le", bound, bound)]) (by simp) hq v hv
  rw [List.map_append, List.map_append, quotedPairs_read] at this
  rw [List.map_cons, List.map_nil, joined_append] at this
  refine Eq.trans (congrArg readSample ?_) this
  have hlit : lit "_bucket{" = lit "_bucket" ++ lit "{" := by decide
  have hle : lit "le=\"" = lit "le" ++ lit "=\"" := by decide
  have hend : lit "\"} " = lit "\"" ++ lit "} " := by decide
  simp only [bucketLine, hlit, hle, hend, List.append_assoc]

/-- Texts of numbers: on one line, without quotes or backslashes. -/
structure NumFmt.Sane {F : Type} (nf : NumFmt F) : Prop where
  bound : ∀ f, ∀ c ∈ nf.bound f, c ≠ '"' ∧ c ≠ '\\'
  sum : ∀ f, '\n' ∉ nf.sum f
  count : ∀ n, '\n' ∉ nf.count n

theorem validName_append (a b : Str) (ha : ValidName a) (hb : ∀ c ∈ b, nameChar c = true) : ValidName (a ++ b) :=
  ⟨by simp [ha.1], fun c hc => by rw [List.mem_append] at hc; exact hc.elim (ha.2 c) (hb c)⟩

/-- C112: a series of a histogram is read as its buckets in order, with the bucket `+Inf`, the sum and the count. -/
theorem C112_histogram {F : Type} (nf : NumFmt F) (hnf : nf.Sane) (isPrint : Char → Bool) (name : Str) (hname : ValidName name)
    (names vals : List Str) (h : Readable isPrint names vals) (l : Str) (hl : stringify isPrint names (vals.map fun v => v.map Elt.rune) = .ok l)
    (p : Printed F) :
    (histLines nf name l p).map readSample =
      p.buckets.map (fun b => some (name ++ lit "_bucket", names.zip vals ++ [(lit "le", nf.bound b.1)], nf.count b.2)) ++
        [some (name ++ lit "_bucket", names.zip vals ++ [(lit "le", lit "+Inf")], nf.count p.inf),
          some (name ++ lit "_sum", names.zip vals, nf.sum p.sum), some (name ++ lit "_count", names.zip vals, nf.count p.count)] := by
  have hb := validName_append name (lit "_bucket") hname (by decide)
  have hs := validName_append name (lit "_sum") hname (by decide)
  have hc := validName_append name (lit "_count") hname (by decide)
  simp only [histLines, List.map_append, List.map_map, List.map_cons, List.map_nil]
  rw [C112_bucket isPrint name hb names vals h l (lit "+Inf") _ hl (by decide) (hnf.count _),
    C112_sample isPrint _ hs names vals h l _ hl (hnf.sum _), C112_sample isPrint _ hc names vals h l _ hl (hnf.count _)]
  congr 1
  refine List.map_congr_left fun b _ => ?_
  exact C112_bucket isPrint name hb names vals h l (nf.bound b.1) _ hl (hnf.bound _) (hnf.count _)

theorem writeAll_noFail (lines : List Str) (w : W) : (writeAll (fun _ => false) lines w).1.out = w.out ++ lines := by
  induction lines generalizing w with
  | nil => simp [writeAll]
  | cons l ls ih => simp [writeAll, fprintf, ih]

theorem readSample_comment (s : Str) : readSample ('#' :: s) = none := by
  have h : readName ('#' :: s) = ([], '#' :: s) := by
    rw [readName, if_neg (by decide)]
  rw [readSample, h]

/-- The lines of a page, each with its newline. -/
def pageLines : Str → List Str
  | [] => []
  | c :: r =>
    if c = '\n' then ['\n'] :: pageLines r
    else match pageLines r with
      | [] => [[c]]
      | l :: ls => (c :: l) :: ls

theorem pageLines_cons (l : Str) (h : '\n' ∉ l) (r : Str) : pageLines (l ++ '\n' :: r) = (l ++ ['\n']) :: pageLines r := by
  induction l with
  | nil => simp [pageLines]
  | cons c l ih =>
    have hc : c ≠ '\n' := fun e => h (by simp [e])
    have ih := ih (fun hm => h (List.mem_cons_of_mem _ hm))
    simp [pageLines, hc, ih]

theorem pageLines_flatten (ls : List Str) (h : ∀ l ∈ ls, OneLine l) : pageLines ls.flatten = ls := by
  induction ls with
  | nil => rfl
  | cons l ls ih =>
    obtain ⟨t, rfl, ht⟩ := h l (List.mem_cons_self ..)
    have ih := ih (fun x hx => h x (List.mem_cons_of_mem _ hx))
    simp [pageLines_cons t ht, ih]

theorem validName_no_newline {s : Str} (h : ValidName s) : '\n' ∉ s := fun hm => absurd (h.2 _ hm) (by decide)

/-- C112: the page of a counter or gauge: what a scraper reads from it, line by line, are exactly the series, with the label values they were
observed with and their values, in the order they are printed. The description and the kind must not contain newlines (C108). -/
theorem C112_page (isPrint : Char → Bool) (name desc kind : Str) (hname : ValidName name) (hd : '\n' ∉ desc) (hk : '\n' ∉ kind) (names : List Str)
    (entries : List (List Str × Str × Str))
    (h : ∀ e ∈ entries, Readable isPrint names e.1 ∧ stringify isPrint names (e.1.map fun v => v.map Elt.rune) = .ok e.2.1 ∧ '\n' ∉ e.2.2) :
    (pageLines (printSeries (fun _ => false) name desc kind (entries.map (·.2)) W.start).1.out.flatten).filterMap readSample =
      entries.map fun e => (name, names.zip e.1, e.2.2) := by
  have hone := C108_series_partial (fun _ => false) name desc kind (entries.map (·.2)) W.start (validName_no_newline hname) hd hk (by
    intro e he
    obtain ⟨x, hx, rfl⟩ := List.mem_map.1 he
    obtain ⟨h1, h2, h3⟩ := h x hx
    exact ⟨C108_labels_partial isPrint h1.newline names _ _ (fun k hk => validName_no_newline (h1.names_ok k hk)) h2, h3⟩)
  rw [pageLines_flatten _ (fun l hl => (hone l hl).resolve_left (by simp [W.start])), C106_series, writeAll_noFail]
  have hs : ((entries.map (·.2)).map fun e => sampleLine name e.1 e.2).filterMap readSample = entries.map fun e => (name, names.zip e.1, e.2.2) := by
    clear hone
    induction entries with
    | nil => rfl
    | cons e es ih =>
      obtain ⟨h1, h2, h3⟩ := h e (List.mem_cons_self ..)
      have ih := ih (fun x hx => h x (List.mem_cons_of_mem _ hx))
      simp only [List.map_cons, List.filterMap_cons, C112_sample isPrint name hname names e.1 h1 e.2.1 e.2.2 h2 h3]
      rw [ih]
  have hc : ∀ s, readSample (lit "# HELP " ++ s) = none ∧ readSample (lit "# TYPE " ++ s) = none := by
    intro s
    exact ⟨readSample_comment _, readSample_comment _⟩
  unfold familyLines
  split
  · rename_i hn
    rw [← hs, hn]
    rfl
  · rw [← hs]
    simp [helpLine, typeLine, W.start, hc]

/-- Two series of a counter, one with a quote and a newline in its label value. -/
example : (pageLines (printSeries (fun _ => false) (lit "hits") (lit "all hits") (lit "counter")
      [(lit "op=\"a\\\"b\\n\",ok=\"y\"", lit "2"), (lit "op=\"\",ok=\"n\"", lit "3")] W.start).1.out.flatten).filterMap readSample =
    [(lit "hits", [(lit "op", lit "a\"b\n"), (lit "ok", lit "y")], lit "2"), (lit "hits", [(lit "op", []), (lit "ok", lit "n")], lit "3")] := by decide
example : stringify asciiPrint [lit "op", lit "ok"] ([lit "a\"b\n", lit "y"].map fun v => v.map Elt.rune) = .ok (lit "op=\"a\\\"b\\n\",ok=\"y\"") := by
  decide +kernel
example : Readable asciiPrint [lit "op", lit "ok"] [lit "a\"b\n", lit "y"] :=
  ⟨by decide, by unfold ValidName; decide, by decide⟩
/-- A bucket of a series without labels, and one with. -/
example : readSample (bucketLine (lit "lat") [] (lit "0.5") (lit "3")) = some (lit "lat_bucket", [(lit "le", lit "0.5")], lit "3") := by decide
example : readSample (bucketLine (lit "lat") (lit "op=\"x\"") (lit "0.5") (lit "3")) =
    some (lit "lat_bucket", [(lit "op", lit "x"), (lit "le", lit "0.5")], lit "3") := by decide

end Verif.Prom

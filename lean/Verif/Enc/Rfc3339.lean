import Verif.Enc.TypedProps
/-!
# Times as text (C139)

`enc.Time` and `time.Time` are written with `Format(time.RFC3339Nano)` and read with `time.Parse` or `time.Time.UnmarshalJSON` (enc/time.go L26-56, enc/handler.go L87-94). Here the parameters
`tFmt`, `tParse` and `tStrict` of the model are replaced by what package `time` does. A time is given by what its clock and calendar show and by the offset of its zone from UTC in seconds; names of
zones and the monotonic clock are not modelled.
-/
set_option autoImplicit false
namespace Verif.Enc.Rfc3339
open Verif.Strconv Verif.Enc

/-- What `Date`, `Clock`, `Nanosecond` and `Zone` return for a `time.Time`. enc/time.go L12. -/
structure Civil where
  year : Int
  month : Nat
  day : Nat
  hour : Nat
  min : Nat
  sec : Nat
  nano : Nat
  /-- seconds east of UTC -/
  off : Int
deriving DecidableEq

/-- `daysIn` of package `time`; reached from enc/time.go L36. -/
def daysIn (month : Nat) (year : Int) : Nat :=
  if month = 2 then (if year % 4 = 0 ∧ (year % 100 ≠ 0 ∨ year % 400 = 0) then 29 else 28)
  else if month = 4 ∨ month = 6 ∨ month = 9 ∨ month = 11 then 30 else 31

/-- `appendInt` of package `time`: decimal, at least `w` digits. Reached from enc/time.go L32. -/
def pad (w n : Nat) : Str := List.replicate (w - (fmtNat n).length) '0' ++ fmtNat n

/-- The year: a sign if it is negative. Reached from enc/time.go L32. -/
def fmtYear (y : Int) : Str := if y < 0 then '-' :: pad 4 y.natAbs else pad 4 y.natAbs

/-- `appendNano` of package `time`: the fraction without trailing zeros, nothing if there is none. Reached from enc/time.go L32. -/
def fmtNano (n : Nat) : Str :=
  match ((pad 9 n).reverse.dropWhile (· = '0')).reverse with
  | [] => []
  | ds => '.' :: ds

/-- The zone: `Z` for UTC, else sign, hours and minutes; seconds are cut off. Reached from enc/time.go L32. -/
def fmtZone (off : Int) : Str :=
  if off = 0 then ['Z']
  else
    let zone := off.tdiv 60
    (if zone < 0 then '-' else '+') :: (pad 2 (zone.natAbs / 60) ++ ':' :: pad 2 (zone.natAbs % 60))

/-- `appendFormatRFC3339` of package `time`, with nanoseconds; called at enc/time.go L27, L32. -/
def fmt (t : Civil) : Str :=
  fmtYear t.year ++ ('-' :: (pad 2 t.month ++ ('-' :: (pad 2 t.day ++ ('T' :: (pad 2 t.hour ++ (':' :: (pad 2 t.min ++ (':' :: (pad 2 t.sec ++ (fmtNano t.nano ++ fmtZone t.off)))))))))))

/-- `parseUint` in `parseRFC3339` of package `time`: digits within a range. Reached from enc/time.go L36, L41. -/
def num (s : Str) (lo hi : Nat) : Option Nat :=
  match digitsVal 0 s with
  | some x => if lo ≤ x ∧ x ≤ hi then some x else none
  | none => none

/-- The digits after a point, as nanoseconds (`parseNanoseconds`): nine count. Reached from enc/time.go L36, L41. -/
def nanos (ds : Str) : Nat := (digitsVal 0 (ds.take 9)).getD 0 * 10 ^ (9 - (ds.take 9).length)

/-- The fraction, if there is one, and what follows. Reached from enc/time.go L36, L41. -/
def parseFrac (s : Str) : Nat × Str :=
  match s with
  | '.' :: r => let ds := r.takeWhile isDigit; if ds = [] then (0, s) else (nanos ds, r.dropWhile isDigit)
  | _ => (0, s)

/-- The zone, as seconds. Reached from enc/time.go L36, L41. -/
def parseZone (s : Str) : Option Int :=
  match s with
  | ['Z'] => some 0
  | [sign, a, b, colon, c, d] =>
    match num [a, b] 0 23, num [c, d] 0 59 with
    | some h, some m => if (sign = '-' ∨ sign = '+') ∧ colon = ':' then some (if sign = '-' then -(((h * 60 + m) * 60 : Nat) : Int) else (((h * 60 + m) * 60 : Nat) : Int)) else none
    | _, _ => none
  | _ => none

/-- `parseRFC3339` of package `time`, which `time.Parse` and `time.Time.UnmarshalJSON` try first; called at enc/time.go L36, L41, enc/handler.go L89. -/
def parse (s : Str) : Option Civil :=
  match s with
  | y1 :: y2 :: y3 :: y4 :: c1 :: m1 :: m2 :: c2 :: d1 :: d2 :: c3 :: h1 :: h2 :: c4 :: n1 :: n2 :: c5 :: s1 :: s2 :: r =>
    match num [y1, y2, y3, y4] 0 9999, num [m1, m2] 1 12 with
    | some y, some mo => match num [d1, d2] 1 (daysIn mo y), num [h1, h2] 0 23, num [n1, n2] 0 59, num [s1, s2] 0 59 with
      | some d, some h, some mi, some sec =>
        if c1 = '-' ∧ c2 = '-' ∧ c3 = 'T' ∧ c4 = ':' ∧ c5 = ':' then
          let f := parseFrac r
          match parseZone f.2 with
          | some off => some ⟨y, mo, d, h, mi, sec, f.1, off⟩
          | none => none
        else none
      | _, _, _, _ => none
    | _, _ => none
  | _ => none

/-- What package `time` guarantees of the clock, the calendar and the zone. -/
structure Valid (t : Civil) : Prop where
  month : 1 ≤ t.month ∧ t.month ≤ 12
  day : 1 ≤ t.day ∧ t.day ≤ daysIn t.month t.year
  hour : t.hour < 24
  min : t.min < 60
  sec : t.sec < 60
  nano : t.nano < 1000000000
  off : -86400 < t.off ∧ t.off < 86400

/-! ### lemmas -/

theorem fmtNat_length (w n : Nat) (hw : 0 < w) (h : n < 10 ^ w) : (fmtNat n).length ≤ w := by
  induction w generalizing n with
  | zero => omega
  | succ w ih =>
    rw [fmtNat]
    split
    · simp
    · rename_i hn
      rw [List.length_append]
      cases w with
      | zero => simp at h; omega
      | succ w =>
        have := ih (n / 10) (by omega) (by rw [Nat.pow_succ] at h; omega)
        simp; omega

theorem pad_length (w n : Nat) (hw : 0 < w) (h : n < 10 ^ w) : (pad w n).length = w := by
  have := fmtNat_length w n hw h
  simp [pad]; omega

theorem digitsVal_zeros (k n : Nat) : digitsVal 0 (List.replicate k '0' ++ fmtNat n) = some n := by
  induction k with
  | zero => exact digitsVal_fmtNat n
  | succ k ih =>
    rw [List.replicate_succ, List.cons_append, digitsVal]
    exact ih

theorem digitsVal_pad (w n : Nat) : digitsVal 0 (pad w n) = some n := digitsVal_zeros _ n

theorem pad_digits (w n : Nat) : ∀ c ∈ pad w n, isDigit c = true := by
  intro c hc
  rcases List.mem_append.1 hc with hc | hc
  · rw [List.eq_of_mem_replicate hc]; decide
  · exact fmtNat_digits n c hc

theorem len2 (s : Str) (h : s.length = 2) : ∃ a b, s = [a, b] := by
  match s, h with
  | [a, b], _ => exact ⟨a, b, rfl⟩

theorem len4 (s : Str) (h : s.length = 4) : ∃ a b c d, s = [a, b, c, d] := by
  match s, h with
  | [a, b, c, d], _ => exact ⟨a, b, c, d, rfl⟩

theorem pad2 (n : Nat) (h : n < 100) : ∃ a b, pad 2 n = [a, b] ∧ ∀ lo hi, lo ≤ n → n ≤ hi → num [a, b] lo hi = some n := by
  obtain ⟨a, b, hab⟩ := len2 _ (pad_length 2 n (by decide) h)
  refine ⟨a, b, hab, fun lo hi h1 h2 => ?_⟩
  have := digitsVal_pad 2 n
  rw [hab] at this
  simp [num, this, h1, h2]

theorem pad4 (n : Nat) (h : n < 10000) : ∃ a b c d, pad 4 n = [a, b, c, d] ∧ num [a, b, c, d] 0 9999 = some n := by
  obtain ⟨a, b, c, d, hab⟩ := len4 _ (pad_length 4 n (by decide) h)
  refine ⟨a, b, c, d, hab, ?_⟩
  have := digitsVal_pad 4 n
  rw [hab] at this
  have h2 : n ≤ 9999 := by omega
  simp [num, this, h2]

theorem zone_bound (off : Int) (h : -86400 < off ∧ off < 86400) : -1440 < off.tdiv 60 ∧ off.tdiv 60 < 1440 := by
  by_cases h0 : 0 ≤ off
  · rw [Int.tdiv_eq_ediv_of_nonneg h0]; omega
  · have : off = -(-off) := by omega
    rw [this, Int.neg_tdiv, Int.tdiv_eq_ediv_of_nonneg (by omega)]; omega

theorem parseZone_fmt (off : Int) (h : -86400 < off ∧ off < 86400) : parseZone (fmtZone off) = some (off.tdiv 60 * 60) := by
  have hb := zone_bound off h
  unfold fmtZone
  split
  · rename_i h0; subst h0; rfl
  · generalize off.tdiv 60 = q at hb ⊢
    obtain ⟨a, b, h1, h1'⟩ := pad2 (q.natAbs / 60) (by omega)
    obtain ⟨c, d, h2, h2'⟩ := pad2 (q.natAbs % 60) (by omega)
    have e1 := h1' 0 23 (by omega) (by omega)
    have e2 := h2' 0 59 (by omega) (by omega)
    simp only [h1, h2]
    by_cases hz : q < 0
    · simp only [hz, if_true, List.cons_append, List.nil_append, parseZone, e1, e2]
      simp; omega
    · simp only [hz, if_false, List.cons_append, List.nil_append, parseZone, e1, e2]
      simp; omega

theorem fmtZone_head (off : Int) : ∃ c r, fmtZone off = c :: r ∧ isDigit c = false ∧ c ≠ '.' := by
  unfold fmtZone
  split
  · exact ⟨'Z', [], rfl, by decide, by decide⟩
  · by_cases hz : off.tdiv 60 < 0
    · exact ⟨'-', _, by simp only [hz, if_true]; rfl, by decide, by decide⟩
    · exact ⟨'+', _, by simp only [hz, if_false]; rfl, by decide, by decide⟩

theorem digitsVal_acc_zeros (k acc : Nat) : digitsVal acc (List.replicate k '0') = some (acc * 10 ^ k) := by
  induction k generalizing acc with
  | zero => simp [digitsVal]
  | succ k ih =>
    rw [List.replicate_succ, digitsVal]
    have : digitVal '0' = some 0 := by decide
    simp only [this, ih, Nat.add_zero, Nat.pow_succ]
    congr 1
    rw [Nat.mul_comm 10 acc, Nat.mul_assoc, Nat.mul_comm 10]

theorem trim_split (s : Str) : ∃ k, s = (s.reverse.dropWhile (· = '0')).reverse ++ List.replicate k '0' := by
  have h := List.takeWhile_append_dropWhile (p := (· = '0')) (l := s.reverse)
  have hz : ∀ c ∈ s.reverse.takeWhile (· = '0'), c = '0' := fun c hc => by
    have := List.all_takeWhile (p := (· = '0')) (l := s.reverse)
    rw [List.all_eq_true] at this
    simpa using this c hc
  refine ⟨(s.reverse.takeWhile (· = '0')).length, ?_⟩
  have hr : s.reverse.takeWhile (· = '0') = List.replicate (s.reverse.takeWhile (· = '0')).length '0' := List.eq_replicate_iff.2 ⟨rfl, hz⟩
  have := congrArg List.reverse h
  rw [List.reverse_append, List.reverse_reverse, hr, List.reverse_replicate] at this
  exact this.symm

theorem parseFrac_fmt (n : Nat) (h : n < 1000000000) (r : Str) (c : Char) (r' : Str) (hr : r = c :: r') (hc : isDigit c = false) (hd : c ≠ '.') :
    parseFrac (fmtNano n ++ r) = (n, r) := by
  subst hr
  obtain ⟨k, hk⟩ := trim_split (pad 9 n)
  have hlen := pad_length 9 n (by decide) h
  have hval := digitsVal_pad 9 n
  have hdig := pad_digits 9 n
  unfold fmtNano
  generalize (List.dropWhile (fun x => decide (x = '0')) (pad 9 n).reverse).reverse = ds at hk
  rw [hk] at hlen hval hdig
  rw [digitsVal_append] at hval
  rw [List.length_append, List.length_replicate] at hlen
  cases ds with
  | nil =>
    rw [digitsVal, Option.bind_some, digitsVal_acc_zeros] at hval
    injection hval with hval
    have : n = 0 := by simpa using hval.symm
    subst this
    have : parseFrac (c :: r') = (0, c :: r') := by
      unfold parseFrac
      split
      · rename_i heq; injection heq with h1; exact absurd h1 hd
      · rfl
    simpa using this
  | cons d ds =>
    have hall : ∀ x ∈ d :: ds, isDigit x = true := fun x hx => hdig x (List.mem_append_left _ hx)
    have htw : ((d :: ds) ++ c :: r').takeWhile isDigit = d :: ds := by
      rw [List.takeWhile_append_of_pos hall, List.takeWhile_cons_of_neg (by simp [hc]), List.append_nil]
    have hdw : ((d :: ds) ++ c :: r').dropWhile isDigit = c :: r' := by
      rw [List.dropWhile_append_of_pos hall, List.dropWhile_cons_of_neg (by simp [hc])]
    show parseFrac ('.' :: ((d :: ds) ++ c :: r')) = _
    simp only [parseFrac, htw, hdw]
    rw [if_neg (by simp)]
    congr 1
    have ht : (d :: ds).take 9 = d :: ds := List.take_of_length_le (by omega)
    rw [nanos, ht]
    cases hv : digitsVal 0 (d :: ds) with
    | none => rw [hv] at hval; cases hval
    | some x =>
      rw [hv, Option.bind_some, digitsVal_acc_zeros] at hval
      injection hval with hval
      have : 9 - (d :: ds).length = k := by omega
      rw [this]; exact hval

/-- What is read of what is written, for years of four digits: the same but for the seconds of the zone. -/
theorem parse_fmt (t : Civil) (hv : Valid t) (hy : 0 ≤ t.year ∧ t.year ≤ 9999) : parse (fmt t) = some { t with off := t.off.tdiv 60 * 60 } := by
  obtain ⟨y, mo, d, h, mi, s, ns, off⟩ := t
  obtain ⟨h1, h2, h3, h4, h5, h6, h7⟩ := hv
  simp only at h1 h2 h3 h4 h5 h6 h7 hy
  obtain ⟨y1, y2, y3, y4, ey, ey'⟩ := pad4 y.natAbs (by omega)
  have hday : daysIn mo y ≤ 31 := by
    unfold daysIn; repeat' split
    all_goals omega
  obtain ⟨m1, m2, em, em'⟩ := pad2 mo (by omega)
  obtain ⟨d1, d2, ed, ed'⟩ := pad2 d (by omega)
  obtain ⟨a1, a2, eh, eh'⟩ := pad2 h (by omega)
  obtain ⟨b1, b2, eb, eb'⟩ := pad2 mi (by omega)
  obtain ⟨s1, s2, es, es'⟩ := pad2 s (by omega)
  obtain ⟨c, r, ez, hz, hz'⟩ := fmtZone_head off
  have hfy : fmtYear y = [y1, y2, y3, y4] := by unfold fmtYear; rw [if_neg (by omega), ey]
  have hnat : (y.natAbs : Int) = y := by omega
  simp only [fmt, hfy, em, ed, eh, eb, es, List.cons_append, List.nil_append, parse, ey', em' 1 12 h1.1 h1.2, hnat, ed' 1 _ h2.1 h2.2, eh' 0 23 (by omega) (by omega),
    eb' 0 59 (by omega) (by omega), es' 0 59 (by omega) (by omega), parseFrac_fmt ns h6 _ c r ez hz hz', parseZone_fmt off h7]
  simp

/-! ### The model of package `enc` with these times -/

/-- The texts of times are those of package `time`. `lenient` and `strictly` are what `time.Parse` and `time.Time.UnmarshalJSON` do when the parser above gives up; `str` is `fmt.Sprint`.
enc/time.go L12-45, enc/handler.go L87-94. -/
def withTimes (X : Ext) (lenient strictly : Str → Option Civil) (str : Civil → Str) : Ext where
  F := X.F
  T := Civil
  fJson := X.fJson
  fParse := X.fParse
  fStr := X.fStr
  fOfInt := X.fOfInt
  fToInt := X.fToInt
  fToUint := X.fToUint
  f32 := X.f32
  fIsZero := X.fIsZero
  fZero := X.fZero
  tFmt := fmt
  tParse := fun s => (parse s).or (lenient s)
  tZero := ⟨1, 1, 1, 0, 0, 0, 0, 0⟩
  dStr := X.dStr
  dParse := X.dParse
  tStr := str
  tStrict := fun s => (parse s).or (strictly s)

/-- The times that survive: the zone is a whole number of minutes, the year has four digits. -/
def Portable (t : Civil) : Prop := Valid t ∧ 0 ≤ t.year ∧ t.year ≤ 9999 ∧ t.off % 60 = 0

/-- Seconds since some day, given the number of every day: the instant. -/
def instant (dayNo : Int → Nat → Nat → Int) (t : Civil) : Int := dayNo t.year t.month t.day * 86400 + t.hour * 3600 + t.min * 60 + t.sec - t.off

/-- Neither general parser of package `time` takes a year that is not four digits followed by a dash: `time.Parse` cuts off four characters, of which the first must be a digit, and wants a dash next. -/
def FourDigits (lenient : Str → Option Civil) : Prop := ∀ s t, lenient s = some t → (∃ c r, s = c :: r ∧ isDigit c = true) ∧ s[4]? = some '-'

theorem laws_withTimes {X : Ext} (hX : Laws X) (l l' : Str → Option Civil) (str : Civil → Str) : Laws (withTimes X l l' str) := ⟨hX.fJson_number, hX.fParse_fJson⟩

theorem tdiv_self (off : Int) (h : off % 60 = 0) : off.tdiv 60 * 60 = off := Int.tdiv_mul_cancel (Int.dvd_of_emod_eq_zero h)

theorem portable_parse (t : Civil) (h : Portable t) : parse (fmt t) = some t := by
  rw [parse_fmt t h.1 ⟨h.2.1, h.2.2.1⟩, tdiv_self t.off h.2.2.2]

/-! ### C139 -/

/-- C139, full statement for the times of the years 0 to 9999 in zones of whole minutes: whatever the general parsers do, an `enc.Time`, a `time.Time` and a list of any length of them come back from their
JSON with the same clock, calendar, nanoseconds and zone. -/
theorem C139_round_trip {X : Ext} (hX : Laws X) (l l' : Str → Option Civil) (str : Civil → Str) (O O' : Order) (H : Handler (withTimes X l l' str)) (t : Civil) (h : Portable t)
    (ts : List Civil) (hts : ∀ t ∈ ts, Portable t) :
    (∃ s, marshalJSON (X := withTimes X l l' str) O .encTime t = .ok s ∧ unmarshalJSON H O' .encTime s (zero _ .encTime) = .done t)
    ∧ (∃ s, marshalJSON (X := withTimes X l l' str) O .time t = .ok s ∧ unmarshalJSON H O' .time s (zero _ .time) = .done t)
    ∧ (∃ s, marshalJSON (X := withTimes X l l' str) O (.slice .time) (some ts) = .ok s ∧ unmarshalJSON H O' (.slice .time) s (zero _ (.slice .time)) = .done (some ts)) := by
  have hf : ∀ t, Portable t → Faithful (X := withTimes X l l' str) true .time t ∧ Faithful (X := withTimes X l l' str) true .encTime t := fun t h => by
    simp only [Faithful, withTimes, portable_parse t h]
    exact ⟨rfl, rfl⟩
  refine ⟨?_, ?_, ?_⟩
  · obtain ⟨n, h1, h2⟩ := C41_round_trip (laws_withTimes hX l l' str) O O' H .encTime t (hf t h).2
    refine h2 ?_
    simp only [marshal] at h1
    cases h1; simp [Node.depth, maxDepth]
  · obtain ⟨n, h1, h2⟩ := C41_round_trip (laws_withTimes hX l l' str) O O' H .time t (hf t h).1
    refine h2 ?_
    simp only [marshal] at h1
    cases h1; simp [Node.depth, maxDepth]
  · obtain ⟨n, h1, h2⟩ := C41_round_trip (laws_withTimes hX l l' str) O O' H (.slice .time) (some ts) (fun t ht => (hf t (hts t ht)).1)
    refine h2 ?_
    have h1 : ((mapRes (marshal (X := withTimes X l l' str) O .time) ts).bind fun ns => .ok (.list ns)) = .ok n := by rw [← h1]; simp only [marshal]
    cases hm : mapRes (marshal (X := withTimes X l l' str) O .time) ts with
    | ok ns =>
      rw [hm] at h1
      cases h1
      have : ∀ l : List (Node (withTimes X l l' str)), (∀ n ∈ l, n.depth = 0) → Node.listDepth l = 0 := fun l hl => by
        induction l with
        | nil => rfl
        | cons a l ih => rw [Node.listDepth, hl a (by simp), ih fun n hn => hl n (by simp [hn])]; rfl
      rw [Node.depth, this ns fun n hn => ?_]
      · decide
      · obtain ⟨x, _, hx⟩ := mapRes_mem _ _ _ hm n hn
        simp only [marshal] at hx
        cases hx; rfl
    | err => rw [hm] at h1; cases h1
    | panic => rw [hm] at h1; cases h1

/-- C139: what comes back in general, for the years 0 to 9999: everything but the seconds of the zone. -/
theorem C139_read (t : Civil) (hv : Valid t) (hy : 0 ≤ t.year ∧ t.year ≤ 9999) : parse (fmt t) = some { t with off := t.off.tdiv 60 * 60 } := parse_fmt t hv hy

/-- C139: no two times that survive have the same text. -/
theorem C139_distinct (t t' : Civil) (h : Portable t) (h' : Portable t') (he : fmt t = fmt t') : t = t' := by
  have := portable_parse t h
  rw [he, portable_parse t' h'] at this
  injection this with this; exact this.symm

/-- C139, violated: a time in a zone with seconds (before standard time nearly every zone is one: Amsterdam until 1937, +00:19:32) comes back as another instant, whatever the calendar, for every such time of
the years 0 to 9999. -/
theorem C139_seconds_violated (dayNo : Int → Nat → Nat → Int) (t : Civil) (hv : Valid t) (hy : 0 ≤ t.year ∧ t.year ≤ 9999) (ho : t.off % 60 ≠ 0) :
    ∃ t', parse (fmt t) = some t' ∧ instant dayNo t' ≠ instant dayNo t := by
  refine ⟨_, parse_fmt t hv hy, fun he => ho ?_⟩
  have : t.off.tdiv 60 * 60 = t.off := by simp only [instant] at he; omega
  omega

theorem pad_long (w n : Nat) (h : w ≤ (fmtNat n).length) : pad w n = fmtNat n := by
  simp [pad, Nat.sub_eq_zero_of_le h]

theorem fmtNat_long (w n : Nat) (h : 10 ^ w ≤ n) : w < (fmtNat n).length := by
  induction w generalizing n with
  | zero => exact List.length_pos_iff.2 (fmtNat_ne_nil n)
  | succ w ih =>
    rw [fmtNat]
    have : 10 ^ (w + 1) = 10 * 10 ^ w := by rw [Nat.pow_succ, Nat.mul_comm]
    have hp : 1 ≤ 10 ^ w := Nat.pow_pos (by decide)
    rw [dif_neg (by omega)]
    have := ih (n / 10) (by omega)
    simp; omega

theorem parse_dash (s : Str) (t : Civil) (h : parse s = some t) : (∃ c r, s = c :: r ∧ isDigit c = true) ∧ s[4]? = some '-' := by
  unfold parse at h
  split at h
  · split at h
    · rename_i hy hm
      split at h
      · split at h
        · rename_i hc
          refine ⟨⟨_, _, rfl, ?_⟩, by simp [hc.1]⟩
          simp only [num, digitsVal] at hy
          split at hy
          · rename_i hd
            split at hd
            · rename_i hdv
              unfold digitVal at hdv
              split at hdv
              · rename_i hh; simp [isDigit, hh]
              · cases hdv
            · cases hd
          · cases hy
        · cases h
      · cases h
    · cases h
  · cases h

/-- C139, violated: a time before the year 0 or after 9999 is written (`Format` has no error to return), but neither reader takes the text. -/
theorem C139_years_violated (X : Ext) (l l' : Str → Option Civil) (hl : FourDigits l) (hl' : FourDigits l') (str : Civil → Str) (t : Civil) (hy : t.year < 0 ∨ 9999 < t.year) :
    (withTimes X l l' str).tParse ((withTimes X l l' str).tFmt t) = none ∧ (withTimes X l l' str).tStrict ((withTimes X l l' str).tFmt t) = none := by
  have key : ¬ ((∃ c r, fmt t = c :: r ∧ isDigit c = true) ∧ (fmt t)[4]? = some '-') := by
    rintro ⟨⟨c, r, he, hc⟩, h4⟩
    rcases hy with hy | hy
    · simp only [fmt, fmtYear, if_pos hy, List.cons_append] at he
      injection he with he _
      rw [← he] at hc
      revert hc; decide
    · have hlen := fmtNat_long 4 t.year.natAbs (by omega)
      simp only [fmt, fmtYear, if_neg (show ¬ t.year < 0 by omega), pad_long 4 _ (by omega : 4 ≤ (fmtNat t.year.natAbs).length)] at h4
      rw [List.getElem?_append_left hlen] at h4
      have := fmtNat_digits t.year.natAbs '-' (List.mem_of_getElem? h4)
      revert this; decide
  have none_of : ∀ p : Str → Option Civil, FourDigits p → p (fmt t) = none := fun p hp => by
    cases h : p (fmt t) with
    | none => rfl
    | some x => exact absurd (hp _ _ h) key
  have hp : parse (fmt t) = none := none_of parse parse_dash
  simp [withTimes, hp, none_of l hl, none_of l' hl']

/-! ### examples -/

/-- Half past ten in Kathmandu on a leap day, with a fraction. -/
def sampleTime : Civil := ⟨2024, 2, 29, 10, 30, 5, 120000000, 20700⟩

theorem sample_portable : Portable sampleTime := ⟨⟨by decide, by decide, by decide, by decide, by decide, by decide, by decide⟩, by decide, by decide, by decide⟩

example : fmt sampleTime = lit "2024-02-29T10:30:05.12+05:45" := by decide +kernel
example : parse (lit "2024-02-29T10:30:05.12+05:45") = some sampleTime := by decide +kernel
example : parse (lit "2023-02-29T10:30:05Z") = none ∧ parse (lit "2024-02-29 10:30:05Z") = none ∧ parse (lit "2024-02-29T24:30:05Z") = none ∧ parse (lit "2024-02-29T10:30:05") = none := by decide +kernel
example : parse (lit "2024-02-29T10:30:05.1234567891Z") = some ⟨2024, 2, 29, 10, 30, 5, 123456789, 0⟩ := by decide +kernel
/-- Amsterdam, 1930. -/
example : fmt ⟨1930, 1, 1, 0, 0, 0, 0, 1172⟩ = lit "1930-01-01T00:00:00+00:19" := by decide +kernel
example : fmt ⟨1930, 1, 1, 0, 0, 0, 0, -1172⟩ = lit "1930-01-01T00:00:00-00:19" := by decide +kernel
example : fmt ⟨10000, 1, 1, 0, 0, 0, 1, 0⟩ = lit "10000-01-01T00:00:00.000000001Z" := by decide +kernel
example : FourDigits fun _ => none := fun _ _ h => nomatch h
/-- The zero time. -/
example (X : Ext) (l l' : Str → Option Civil) (str : Civil → Str) : (withTimes X l l' str).tFmt (withTimes X l l' str).tZero = lit "0001-01-01T00:00:00Z" := by
  show fmt ⟨1, 1, 1, 0, 0, 0, 0, 0⟩ = _
  decide +kernel
example : fmt ⟨1, 1, 1, 0, 0, 0, 1, 0⟩ ≠ lit "0001-01-01T00:00:00Z" := by decide +kernel

end Verif.Enc.Rfc3339

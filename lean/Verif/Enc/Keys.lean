import Verif.Enc.TypedProps
/-!
# Keys of maps of every type (enc/handler.go L243-271, enc/map.go L51-87)

The typed model (Enc/Types.lean) has maps whose keys are strings or integers. Here keys are of any comparable type a program may use: floats, booleans, times, interfaces, pointers and types with
methods of their own. Values of the maps are nodes. Writing a key goes through `Marshal`, so it uses the methods of its type; reading a key looks at its kind first.
-/
set_option autoImplicit false
namespace Verif.Enc.Keys
open Verif.Strconv Verif.Enc

/-- Types of keys. `named t m`: a defined type with underlying type `t` and the methods `m`. enc/map.go L58-75, enc/handler.go L177-222. -/
inductive KT where
  | str
  | int (w : Width)
  | uint (w : Width)
  | f64
  | bool
  | time
  | any
  | ptr (t : KT)
  | named (t : KT) (m : Nat)

/-- What a key of type `any` holds: nothing, a `string`, an `int64`, a `float64`, a `bool` or a `time.Time`. enc/handler.go L250. -/
inductive Dyn (X : Ext) where
  | nil
  | str (s : Str)
  | int (i : BitVec 64)
  | f64 (f : X.F)
  | bool (b : Bool)
  | time (t : X.T)

/-- Keys. Of a pointer only what it points to is kept. enc/map.go L57. -/
def KV (X : Ext) : KT → Type
  | .str => Str
  | .int w => BitVec w.bits
  | .uint w => BitVec w.bits
  | .f64 => X.F
  | .bool => Bool
  | .time => X.T
  | .any => Dyn X
  | .ptr t => Option (KV X t)
  | .named t _ => KV X t

/-- The methods of types: `MarshalNode`, or `MarshalJSON` and decoding (enc/handler.go L180-182, L190-195); `UnmarshalNode`, or encoding and `UnmarshalJSON` (L75-79, L95-101). -/
structure Methods (X : Ext) where
  write : (t : KT) → Nat → KV X t → Res (Node X)
  read : (t : KT) → Nat → Node X → Res (KV X t)

variable {X : Ext}

/-- Whether a pointer to the type has the methods of the value, so that calling one on a nil pointer panics. enc/handler.go L180-195. -/
def valueMethods : KT → Bool
  | .time | .named _ _ => true
  | _ => false

/-- A pointer to `time.Time` is a `json.Marshaler` but no `time.Time`: it goes through JSON. enc/handler.go L183-195, L218-222. -/
def throughJson : KT → Res (Node X) → Res (Node X)
  | .time, .ok n => marshalNode n
  | _, r => r

/-- `Marshal` of a key: enc/handler.go L175-222. -/
def nodeOf (M : Methods X) : (t : KT) → KV X t → Res (Node X)
  | .str, (s : Str) => .ok (.str s)
  | .int w, (v : BitVec w.bits) => .ok (.int v.toInt)
  | .uint w, (v : BitVec w.bits) => .ok (.int (BitVec.ofNat 64 v.toNat).toInt)
  | .f64, (f : X.F) => .ok (.float f)
  | .bool, (b : Bool) => .ok (.bool b)
  | .time, (t : X.T) => .ok (.time t)
  | .any, (d : Dyn X) => match d with
    | .nil => .ok .nil
    | .str s => .ok (.str s)
    | .int i => .ok (.int i.toInt)
    | .f64 f => .ok (.float f)
    | .bool b => .ok (.bool b)
    | .time t => .ok (.time t)
  | .ptr t, (v : Option (KV X t)) => match v with
    | none => if valueMethods t then .panic else .ok .nil
    | some v => throughJson t (nodeOf M t v)
  | .named t m, v => M.write t m v

/-- Strings and numbers can be keys: enc/handler.go L258-269. -/
def keyText : Node X → Res Str
  | .str s => .ok s
  | .int i => .ok (fmtInt i)
  | .float f => .ok (X.fStr f)
  | .digits s => .ok s
  | _ => .err

/-- The key of the object: enc/handler.go L250-270. -/
def writeKey (M : Methods X) (t : KT) (v : KV X t) : Res Str := (nodeOf M t v).bind keyText

/-- `unmarshal` of a `String` into a key: enc/handler.go L51-109, enc/scalar.go L26-38. -/
def readString (M : Methods X) : (t : KT) → Str → Res (KV X t)
  | .str, s => .ok (show Str from s)
  | .any, s => .ok (show Dyn X from .str s)
  | .time, s => match X.tStrict s with
    | some t => .ok (show X.T from t)
    | none => .err
  | .ptr t, s => (readString M t s).bind fun v => .ok (show Option (KV X t) from some v)
  | .named t m, s => M.read t m (.str s)
  | .int _, _ => .err
  | .uint _, _ => .err
  | .f64, _ => .err
  | .bool, _ => .err

/-- Whether the kind of a type is that of a string or an integer. enc/map.go L59-71. -/
def plainKind : KT → Bool
  | .str | .int _ | .uint _ => true
  | .named t _ => plainKind t
  | _ => false

/-- The key of the map: by kind, or as a `String`. enc/map.go L57-78. -/
def readKey (M : Methods X) : (t : KT) → Str → Res (KV X t)
  | .str, s => .ok (show Str from s)
  | .int w, s => match parseInt s with
    | some i => .ok (BitVec.ofInt w.bits i)
    | none => .err
  | .uint w, s => match parseUint s with
    | some n => .ok (BitVec.ofNat w.bits n)
    | none => .err
  | .named t m, s => if plainKind t then readKey M t s else M.read t m (.str s)
  | t, s => readString M t s

/-- Writing a map, its entries in the order of `MapKeys`: enc/handler.go L243-272. -/
def writeMap (M : Methods X) (t : KT) (m : List (KV X t × Node X)) : Res (List (Str × Node X)) :=
  (mapRes (fun e => (writeKey M t e.1).bind fun k => .ok (k, e.2)) m).bind fun l => .ok (ofEntries l)

/-- Reading a map, the entries in the order of `range`: enc/map.go L52-87. -/
def readMap (M : Methods X) (t : KT) (l : List (Str × Node X)) : Res (List (KV X t × Node X)) :=
  mapRes (fun e => (readKey M t e.1).bind fun k => .ok (k, e.2)) l

/-! ### which keys come back -/

/-- Keys behind pointers that come back: strings, maybe in an interface, and times whose text is read as the same time. -/
def TextOf : (t : KT) → KV X t → Prop
  | .str, _ => True
  | .any, (d : Dyn X) => ∃ s, d = .str s
  | .time, (t : X.T) => X.tStrict (X.tFmt t) = some t
  | .ptr t, (v : Option (KV X t)) => ∃ w, v = some w ∧ TextOf t w
  | _, _ => False

/-- Keys that come back: strings, integers below 2^63, strings in interfaces, and pointers to strings and times. No floats and booleans, and no times that are not behind a pointer. -/
def Comes : (t : KT) → KV X t → Prop
  | .str, _ => True
  | .int _, _ => True
  | .uint w, (v : BitVec w.bits) => v.toNat < 2 ^ 63
  | .any, (d : Dyn X) => ∃ s, d = .str s
  | .ptr t, (v : Option (KV X t)) => ∃ w, v = some w ∧ TextOf t w
  | _, _ => False

/-- No methods. -/
def Bare : KT → Prop
  | .named _ _ => False
  | .ptr t => Bare t
  | _ => True

theorem bits_le (w : Width) : w.bits ≤ 64 := by cases w <;> decide

theorem toInt_range (w : Width) (v : BitVec w.bits) : -2 ^ 63 ≤ v.toInt ∧ v.toInt < 2 ^ 63 := by
  have h1 := BitVec.le_toInt v
  have h2 := BitVec.toInt_lt (x := v)
  have h3 : (2 : Int) ^ (w.bits - 1) ≤ 2 ^ 63 := by cases w <;> decide
  omega

theorem keyInt (w : Width) (v : BitVec w.bits) : (match parseInt (fmtInt v.toInt) with | some i => Res.ok (BitVec.ofInt w.bits i) | none => .err) = .ok v := by
  have h := toInt_range w v
  rw [parseInt_fmtInt _ h.1 h.2]
  simp

theorem ofNat_self {n : Nat} (x : BitVec n) : BitVec.ofNat n x.toNat = x := by simp

theorem parseUint_neg (i : Int) (h : i < 0) : parseUint (fmtInt i) = none := by
  unfold fmtInt
  rw [if_pos h]
  simp only [parseUint, parseNat]
  split
  · rename_i n hn
    exfalso
    revert hn
    simp [digitsVal, digitVal]
  · rfl

theorem textOf_iff (M : Methods X) : ∀ (t : KT) (v : KV X t), Bare t →
    ((∃ s, (throughJson t (nodeOf M t v)).bind keyText = .ok s ∧ readString M t s = .ok v) ↔ TextOf t v)
  | .str, v, _ => by simp only [TextOf, iff_true]; exact ⟨v, rfl, rfl⟩
  | .int _, v, _ => by simp [readString, TextOf]
  | .uint _, v, _ => by simp [readString, TextOf]
  | .f64, v, _ => by simp [readString, TextOf]
  | .bool, v, _ => by simp [readString, TextOf]
  | .time, v, _ => by
    have e : throughJson .time (nodeOf M .time v) = .ok (.str (X.tFmt v)) := marshalNode_time (X := X) v
    rw [e]
    simp only [TextOf]
    constructor
    · rintro ⟨s, h1, h2⟩
      cases h1
      simp only [readString] at h2
      split at h2
      · rename_i t ht; rw [ht]; exact congrArg some (Res.ok.inj h2)
      · cases h2
    · intro h
      exact ⟨_, rfl, by simp only [readString]; rw [h]⟩
  | .any, v, _ => by
    simp only [TextOf]
    constructor
    · rintro ⟨s, -, h⟩
      exact ⟨s, (Res.ok.inj h).symm⟩
    · rintro ⟨s, rfl⟩
      exact ⟨s, rfl, rfl⟩
  | .ptr t, v, hb => by
    simp only [TextOf]
    constructor
    · rintro ⟨s, h1, h2⟩
      cases v with
      | none =>
        simp only [throughJson, nodeOf] at h1
        split at h1 <;> cases h1
      | some w =>
        refine ⟨w, rfl, (textOf_iff M t w hb).1 ⟨s, h1, ?_⟩⟩
        simp only [readString] at h2
        cases hr : readString M t s with
        | ok a => rw [hr] at h2; rw [Option.some.inj (Res.ok.inj h2)]
        | err => rw [hr] at h2; cases h2
        | panic => rw [hr] at h2; cases h2
    · rintro ⟨w, rfl, h⟩
      obtain ⟨s, h1, h2⟩ := (textOf_iff M t w hb).2 h
      exact ⟨s, h1, by simp only [readString, h2, Res.bind]⟩
  | .named _ _, _, hb => hb.elim

/-- C152: exactly these keys are written as a text from which they are read again. -/
theorem C152_key (M : Methods X) (t : KT) (v : KV X t) (hb : Bare t) : (∃ s, writeKey M t v = .ok s ∧ readKey M t s = .ok v) ↔ Comes t v := by
  cases t with
  | str => simp only [Comes, iff_true]; exact ⟨v, rfl, rfl⟩
  | int w => simp only [Comes, iff_true]; exact ⟨_, rfl, keyInt w v⟩
  | uint w =>
    have hw : (2 : Nat) ^ w.bits ≤ 2 ^ 64 := Nat.pow_le_pow_right (by decide) (bits_le w)
    have hv : BitVec.toNat (w := w.bits) v < 2 ^ w.bits := BitVec.isLt _
    simp only [Comes, writeKey, nodeOf, Res.bind, keyText, Res.ok.injEq]
    have hm : BitVec.toNat (w := w.bits) v % 2 ^ 64 = BitVec.toNat (w := w.bits) v := Nat.mod_eq_of_lt (by omega)
    constructor
    · rintro ⟨s, rfl, h⟩
      refine Nat.lt_of_not_le fun hge => ?_
      have hneg : (BitVec.ofNat 64 (BitVec.toNat (w := w.bits) v)).toInt < 0 := by
        rw [BitVec.toInt_eq_toNat_cond, BitVec.toNat_ofNat, hm]
        split <;> omega
      simp only [readKey, parseUint_neg _ hneg] at h
      cases h
    · intro h
      have hpos : (BitVec.ofNat 64 (BitVec.toNat (w := w.bits) v)).toInt = BitVec.toNat (w := w.bits) v := by
        rw [BitVec.toInt_eq_toNat_cond, BitVec.toNat_ofNat, hm]
        split <;> omega
      refine ⟨_, rfl, ?_⟩
      rw [hpos]
      simp only [readKey, parseUint_fmtInt (BitVec.toNat (w := w.bits) v : Int) (Int.natCast_nonneg _) (by omega), Int.toNat_natCast]
      exact congrArg Res.ok (ofNat_self v)
  | f64 => simp [readKey, readString, Comes]
  | bool => simp [readKey, readString, Comes]
  | time => simp [writeKey, nodeOf, Res.bind, keyText, Comes]
  | any => exact textOf_iff M .any v hb
  | ptr t => exact textOf_iff M (.ptr t) v hb
  | named t m => exact hb.elim

/-- Keys that are written: texts and numbers, maybe in an interface or behind pointers, and times behind a pointer. -/
def Written : (t : KT) → KV X t → Prop
  | .str, _ | .int _, _ | .uint _, _ | .f64, _ => True
  | .any, (d : Dyn X) => (∃ s, d = .str s) ∨ (∃ i, d = .int i) ∨ ∃ f, d = .f64 f
  | .ptr .time, (v : Option X.T) => v ≠ none
  | .ptr t, (v : Option (KV X t)) => ∃ w, v = some w ∧ Written t w
  | _, _ => False

/-- The key is a nil pointer to a time, maybe behind further pointers. -/
def NilTime : (t : KT) → KV X t → Prop
  | .ptr .time, (v : Option X.T) => v = none
  | .ptr t, (v : Option (KV X t)) => ∃ w, v = some w ∧ NilTime t w
  | _, _ => False

/-- C152: exactly these keys are written; all others are refused, so that the whole map is, and only a nil pointer to a time panics. -/
theorem C152_written (M : Methods X) : ∀ (t : KT) (v : KV X t), Bare t →
    ((∃ s, writeKey M t v = .ok s) ↔ Written t v) ∧ (writeKey M t v = .panic ↔ NilTime t v)
  | .str, v, _ => ⟨⟨fun _ => trivial, fun _ => ⟨v, rfl⟩⟩, ⟨(nomatch ·), (·.elim)⟩⟩
  | .int _, _, _ => by simp [writeKey, nodeOf, Res.bind, keyText, Written, NilTime]
  | .uint _, _, _ => by simp [writeKey, nodeOf, Res.bind, keyText, Written, NilTime]
  | .f64, _, _ => by simp [writeKey, nodeOf, Res.bind, keyText, Written, NilTime]
  | .bool, _, _ => by simp [writeKey, nodeOf, Res.bind, keyText, Written, NilTime]
  | .time, _, _ => by simp [writeKey, nodeOf, Res.bind, keyText, Written, NilTime]
  | .any, d, _ => by
    cases (d : Dyn X) <;> simp [writeKey, nodeOf, Res.bind, keyText, Written, NilTime]
  | .ptr t, v, hb => by
    cases v with
    | none =>
      cases t with
      | time => exact ⟨⟨fun ⟨_, h⟩ => (nomatch h), fun h => (h rfl).elim⟩, fun _ => rfl, fun _ => rfl⟩
      | named _ _ => exact hb.elim
      | str | int _ | uint _ | f64 | bool | any | ptr _ => simp [writeKey, nodeOf, Res.bind, keyText, Written, NilTime, valueMethods]
    | some w =>
      have ih := C152_written M t w hb
      cases t with
      | time =>
        have e : writeKey M (.ptr .time) (some w) = .ok (X.tFmt w) := by
          have e : throughJson .time (nodeOf M .time w) = .ok (.str (X.tFmt w)) := marshalNode_time (X := X) w
          show (throughJson .time (nodeOf M .time w)).bind keyText = _
          rw [e]; rfl
        rw [e]
        exact ⟨⟨fun _ h => (nomatch h), fun _ => ⟨_, rfl⟩⟩, ⟨(nomatch ·), (nomatch ·)⟩⟩
      | named _ _ => exact hb.elim
      | str | int _ | uint _ | f64 | bool | any | ptr _ =>
        have e : ∀ t', (∀ r, throughJson (X := X) t' r = r) → ∀ w : KV X t', writeKey M (.ptr t') (some w) = writeKey M t' w := by
          intro t' h w; simp only [writeKey, nodeOf, h]
        rw [e _ (fun r => rfl)]
        simpa [Written, NilTime] using ih
  | .named _ _, _, hb => hb.elim

/-- C152: a defined type whose kind is that of a string or an integer is read like its kind, whatever its methods; every other one is read by its method, from a `String`. What its method writes is the key if it is a
text or a number of whatever form. -/
theorem C152_defined (M : Methods X) (m : Nat) (s : Str) : readKey M (.named .str m) s = readKey M .str s ∧
    (∀ w, readKey M (.named (.int w) m) s = readKey M (.int w) s) ∧ (∀ w, readKey M (.named (.uint w) m) s = readKey M (.uint w) s) ∧
    (∀ t, t = .f64 ∨ t = .bool ∨ t = .time ∨ t = .any ∨ (∃ t', t = .ptr t') → readKey M (.named t m) s = M.read t m (.str s)) ∧
    ∀ t v, (M.write t m v = .ok (.str s) ∨ M.write t m v = .ok (.digits s) → writeKey M (.named t m) v = .ok s) := by
  refine ⟨rfl, fun _ => rfl, fun _ => rfl, ?_, ?_⟩
  · rintro t (rfl | rfl | rfl | rfl | ⟨_, rfl⟩) <;> rfl
  · rintro t v (h | h) <;> simp [writeKey, nodeOf, h, Res.bind, keyText]

/-! ### whole maps -/

theorem insertKey_new {α : Type} (k : Str) (v : α) (m : List (Str × α)) (h : k ∉ m.map (·.1)) : (insertKey k v m).Perm ((k, v) :: m) := by
  induction m with
  | nil => exact .refl _
  | cons e m ih =>
    simp only [List.map_cons, List.mem_cons, not_or] at h
    simp only [insertKey, if_neg h.1]
    split
    · exact .refl _
    · exact ((ih h.2).cons e).trans (.swap _ _ _)

theorem foldl_new {α : Type} (l : List (Str × α)) : ∀ acc : List (Str × α), ((acc ++ l).map (·.1)).Nodup →
    (l.foldl (fun m e => insertKey e.1 e.2 m) acc).Perm (acc ++ l) := by
  induction l with
  | nil => intro acc _; simp
  | cons e l ih =>
    intro acc h
    have h0 : e.1 ∉ acc.map (·.1) := by
      simp only [List.map_append, List.map_cons] at h
      have := (List.nodup_append.1 h).2.2
      intro hm
      exact this _ hm _ (List.mem_cons_self ..) rfl
    have hp := insertKey_new e.1 e.2 acc h0
    have hq : (insertKey e.1 e.2 acc ++ l).Perm (acc ++ e :: l) := (hp.append_right l).trans List.perm_middle.symm
    exact (ih _ ((hq.map _).nodup_iff.2 h)).trans hq

/-- A map built from entries with different keys has these entries. -/
theorem ofEntries_new {α : Type} (l : List (Str × α)) (h : (l.map (·.1)).Nodup) : (ofEntries l).Perm l := foldl_new l [] h

theorem mapRes_perm {α β : Type} (f : α → Res β) {l l' : List α} (hp : l.Perm l') : ∀ m, mapRes f l = .ok m → ∃ m', mapRes f l' = .ok m' ∧ m'.Perm m := by
  have get : ∀ (a : α) (l : List α) (m : List β), mapRes f (a :: l) = .ok m → ∃ b bs, f a = .ok b ∧ mapRes f l = .ok bs ∧ m = b :: bs := by
    intro a l m h
    simp only [mapRes] at h
    cases ha : f a with
    | ok b =>
      cases hl : mapRes f l with
      | ok bs => rw [ha, hl] at h; exact ⟨b, bs, rfl, rfl, (Res.ok.inj h).symm⟩
      | err => rw [ha, hl] at h; cases h
      | panic => rw [ha, hl] at h; cases h
    | err => rw [ha] at h; cases h
    | panic => rw [ha] at h; cases h
  induction hp with
  | nil => intro m h; exact ⟨m, h, .refl _⟩
  | cons a _ ih =>
    intro m h
    obtain ⟨b, bs, h1, h2, rfl⟩ := get _ _ _ h
    obtain ⟨m', h3, h4⟩ := ih _ h2
    exact ⟨b :: m', by simp only [mapRes, h1, h3, Res.bind], h4.cons b⟩
  | swap a c l =>
    intro m h
    obtain ⟨b, bs, h1, h2, rfl⟩ := get _ _ _ h
    obtain ⟨b', bs', h3, h4, rfl⟩ := get _ _ _ h2
    exact ⟨b' :: b :: bs', by simp only [mapRes, h1, h3, h4, Res.bind], .swap _ _ _⟩
  | trans _ _ ih1 ih2 =>
    intro m h
    obtain ⟨m1, h1, p1⟩ := ih1 _ h
    obtain ⟨m2, h2, p2⟩ := ih2 _ h1
    exact ⟨m2, h2, p2.trans p1⟩

theorem bind_ok {α β : Type} (a : α) (f : α → Res β) : (Res.ok a).bind f = f a := rfl

theorem readMap_cons (M : Methods X) (t : KT) (e : Str × Node X) (l : List (Str × Node X)) (m : List (KV X t × Node X)) :
    readMap M t (e :: l) = .ok m ↔ ∃ k m', readKey M t e.1 = .ok k ∧ readMap M t l = .ok m' ∧ m = (k, e.2) :: m' := by
  have he : readMap M t (e :: l) = ((readKey M t e.1).bind fun k => .ok (k, e.2)).bind fun b => (readMap M t l).bind fun bs => .ok (b :: bs) := rfl
  rw [he]
  cases readKey M t e.1 with
  | ok k =>
    simp only [bind_ok]
    cases readMap M t l with
    | ok m' =>
      constructor
      · intro h; exact ⟨k, m', rfl, rfl, (Res.ok.inj h).symm⟩
      · rintro ⟨k', m'', h1, h2, rfl⟩; cases h1; cases h2; rfl
    | err => constructor
             · intro h; cases h
             · rintro ⟨_, _, _, h, _⟩; cases h
    | panic => constructor
               · intro h; cases h
               · rintro ⟨_, _, _, h, _⟩; cases h
  | err => constructor
           · intro h; cases h
           · rintro ⟨_, _, h, _⟩; cases h
  | panic => constructor
             · intro h; cases h
             · rintro ⟨_, _, h, _⟩; cases h

theorem readMap_mem (M : Methods X) (t : KT) : ∀ (l : List (Str × Node X)) (m : List (KV X t × Node X)), readMap M t l = .ok m →
    ∀ s ∈ l.map (·.1), ∀ k, readKey M t s = .ok k → k ∈ m.map (·.1)
  | [], _, _, s, hs, _, _ => by simp at hs
  | e :: l, m, h, s, hs, k, hk => by
    obtain ⟨k', m', h1, h2, rfl⟩ := (readMap_cons M t e l m).1 h
    simp only [List.map_cons, List.mem_cons] at hs ⊢
    rcases hs with rfl | hs
    · left; rw [h1] at hk; exact (Res.ok.inj hk).symm
    · exact Or.inr (readMap_mem M t l m' h2 s hs k hk)

theorem readMap_nodup (M : Methods X) (t : KT) : ∀ (l : List (Str × Node X)) (m : List (KV X t × Node X)), readMap M t l = .ok m → (m.map (·.1)).Nodup →
    (l.map (·.1)).Nodup
  | [], _, _, _ => List.nodup_nil
  | e :: l, m, h, hn => by
    obtain ⟨k, m', h1, h2, rfl⟩ := (readMap_cons M t e l m).1 h
    simp only [List.map_cons, List.nodup_cons] at hn ⊢
    exact ⟨fun hm => hn.1 (readMap_mem M t l m' h2 _ hm _ h1), readMap_nodup M t l m' h2 hn.2⟩

/-- C152: a map with such keys is written, in whatever order its entries are visited, as an object with as many members; read in any order, it is the same map. What is missing: all other keys. -/
theorem C152_map_partial (M : Methods X) (t : KT) (hb : Bare t) (m : List (KV X t × Node X)) (hn : (m.map (·.1)).Nodup) (hc : ∀ e ∈ m, Comes t e.1) :
    ∃ l, writeMap M t m = .ok l ∧ l.length = m.length ∧ ∀ l', l'.Perm l → ∃ m', readMap M t l' = .ok m' ∧ m'.Perm m := by
  have key : ∃ l0, mapRes (fun e : KV X t × Node X => (writeKey M t e.1).bind fun k => .ok (k, e.2)) m = .ok l0 ∧ readMap M t l0 = .ok m ∧ l0.length = m.length := by
    clear hn
    induction m with
    | nil => exact ⟨[], rfl, rfl, rfl⟩
    | cons e m ih =>
      obtain ⟨l0, h1, h2, h3⟩ := ih fun x hx => hc x (List.mem_cons_of_mem _ hx)
      obtain ⟨s, h5, h6⟩ := (C152_key M t e.1 hb).2 (hc e (List.mem_cons_self ..))
      exact ⟨(s, e.2) :: l0, by simp only [mapRes, h5, h1, bind_ok], (readMap_cons M t (s, e.2) l0 _).2 ⟨e.1, m, h6, h2, rfl⟩, by simp [h3]⟩
  obtain ⟨l0, h1, h2, h3⟩ := key
  have hp := ofEntries_new l0 (readMap_nodup M t l0 m h2 hn)
  refine ⟨ofEntries l0, by simp only [writeMap, h1, bind_ok], by rw [hp.length_eq, h3], fun l' hl' => ?_⟩
  exact mapRes_perm _ (hp.symm.trans hl'.symm) m h2

/-! ### what does not hold -/

/-- C152 is violated: a map with floats as keys is written, but no object with a member is read into such a map. -/
theorem C152_float_violated (M : Methods X) (f : X.F) (n : Node X) : writeMap M .f64 [(f, n)] = .ok [(X.fStr f, n)] ∧
    ∀ e l, readMap M .f64 (e :: l) = .err := by
  refine ⟨rfl, fun e l => rfl⟩

/-- C152 is violated: unsigned integers from 2^63 on are written as negative numbers, which are refused. -/
theorem C152_uint_violated (M : Methods X) (v : BitVec 64) (n : Node X) (h : 2 ^ 63 ≤ v.toNat) :
    writeMap M (.uint .w64) [(v, n)] = .ok [(fmtInt (v.toNat - 2 ^ 64), n)] ∧ readMap M (.uint .w64) [(fmtInt (v.toNat - 2 ^ 64), n)] = .err := by
  have hlt := v.isLt
  have e : (BitVec.ofNat 64 v.toNat).toInt = (v.toNat : Int) - 2 ^ 64 := by
    rw [BitVec.ofNat_toNat, BitVec.setWidth_eq, BitVec.toInt_eq_toNat_cond]
    split <;> omega
  constructor
  · have : writeKey M (.uint .w64) v = .ok (fmtInt ((v.toNat : Int) - 2 ^ 64)) := by
      rw [← e]; rfl
    simp only [writeMap, mapRes, this, Res.bind]
    rfl
  · simp only [readMap, mapRes, readKey, parseUint_neg ((v.toNat : Int) - 2 ^ 64) (by omega), Res.bind]

/-- C152 is violated: a time as a key is read but not written; behind a pointer it is both; a nil pointer panics. -/
theorem C152_time_violated (M : Methods X) (t : X.T) (s : Str) (h : X.tStrict s = some t) (n : Node X) : readMap M .time [(s, n)] = .ok [(t, n)] ∧
    writeMap M .time [(t, n)] = .err ∧ writeMap M (.ptr .time) [(some t, n)] = .ok [(X.tFmt t, n)] ∧ writeMap M (.ptr .time) [(none, n)] = .panic := by
  refine ⟨?_, rfl, ?_, rfl⟩
  · have : readKey M .time s = .ok t := by simp only [readKey, readString]; rw [h]
    simp only [readMap, mapRes, this, Res.bind]
  · have : writeKey M (.ptr .time) (some t) = .ok (X.tFmt t) := by
      have e : throughJson .time (nodeOf M .time t) = .ok (.str (X.tFmt t)) := marshalNode_time (X := X) t
      show (throughJson .time (nodeOf M .time t)).bind keyText = _
      rw [e]
      rfl
    simp only [writeMap, mapRes, this, Res.bind]
    rfl

/-- C152 is violated: two keys of a `map[any]any`, a number and its text, are written as one member, whose value depends on the order of visits; and a number comes back as a text. -/
theorem C152_any_violated (M : Methods X) (i : BitVec 64) (n n' : Node X) :
    writeMap M .any [(.int i, n), (.str (fmtInt i.toInt), n')] = .ok [(fmtInt i.toInt, n')] ∧
    writeMap M .any [(.str (fmtInt i.toInt), n'), (.int i, n)] = .ok [(fmtInt i.toInt, n)] ∧
    readMap M .any [(fmtInt i.toInt, n)] = .ok [(.str (fmtInt i.toInt), n)] := by
  refine ⟨?_, ?_, rfl⟩ <;>
  · show Res.ok (insertKey _ _ [_]) = _
    simp [insertKey]

/-- C152 is violated: a string or integer type with a method that writes it is written by this method, but what is read is the text itself or the number in it: its own method is not called. -/
theorem C152_method_violated (M : Methods X) (t : KT) (m : Nat) (v : KV X t) (s : Str) (h : M.write t m v = .ok (.str s)) (ht : plainKind t = true) :
    writeKey M (.named t m) v = .ok s ∧ readKey M (.named t m) s = readKey M t s := by
  constructor
  · simp only [writeKey, nodeOf, h, Res.bind, keyText]
  · exact if_pos ht

/-- C152: of other kinds the methods are used both ways. -/
theorem C152_method (M : Methods X) (t : KT) (m : Nat) (v : KV X t) (s : Str) (h : M.write t m v = .ok (.str s)) (ht : plainKind t = false) :
    writeKey M (.named t m) v = .ok s ∧ readKey M (.named t m) s = M.read t m (.str s) := by
  constructor
  · simp only [writeKey, nodeOf, h, Res.bind, keyText]
  · exact if_neg (ne_true_of_eq_false ht)

/-- C152: keys of strings and integers are read as in the model of typed values, where a key is kept as its text. -/
theorem C152_agrees (M : Methods X) (w : Width) (s : Str) :
    (match readKey M (.int w) s with | .ok v => some (fmtInt (BitVec.toInt (n := w.bits) v)) | _ => none) = normKey (.int w) s ∧
    (match readKey M (.uint w) s with | .ok v => some (fmtInt (BitVec.toNat (w := w.bits) v)) | _ => none) = normKey (.uint w) s ∧
    (match readKey M .str s with | .ok v => some v | _ => none) = normKey .str s ∧
    (match readKey M .bool s with | .ok _ => some s | _ => none) = normKey .other s := by
  refine ⟨?_, ?_, rfl, rfl⟩
  · simp only [readKey, normKey]; cases parseInt s <;> rfl
  · simp only [readKey, normKey]; cases parseUint s <;> rfl

/-! ### examples -/

/-- A level is written by name and would be read by name. -/
def levels : Methods XT where
  write
    | .int _, _, v => .ok (.str (if BitVec.toInt v = 1 then lit "low" else lit "high"))
    | .bool, _, v => .ok (.str (bif v then lit "on" else lit "off"))
    | _, _, _ => .err
  read
    | .int w, _, .str s => if s = lit "low" then .ok (BitVec.ofInt w.bits 1) else .ok (BitVec.ofInt w.bits 2)
    | .bool, _, .str s => .ok (s == lit "on" : Bool)
    | _, _, _ => .err

/-- C152: `map[int8]`, with keys -1 and 20: the members are in the order of their texts. -/
example : writeMap levels (.int .w8) [((20 : BitVec 8), .str (lit "b")), ((-1 : BitVec 8), .str (lit "a"))] = .ok [(lit "-1", .str (lit "a")), (lit "20", .str (lit "b"))] ∧
    readMap levels (.int .w8) [(lit "-1", .str (lit "a")), (lit "20", .str (lit "b"))] = .ok [((-1 : BitVec 8), .str (lit "a")), ((20 : BitVec 8), .str (lit "b"))] := ⟨by with_unfolding_all rfl, by with_unfolding_all rfl⟩

/-- C152: these keys meet what is assumed. -/
example : ∃ l, writeMap levels (.ptr .any) [(some (.str (lit "x")), .nil), (some (.str (lit "y")), .bool true)] = .ok l ∧ l.length = 2 ∧
    ∀ l', l'.Perm l → ∃ m', readMap levels (.ptr .any) l' = .ok m' ∧ m'.Perm [(some (.str (lit "x")), .nil), (some (.str (lit "y")), .bool true)] := by
  refine C152_map_partial levels (.ptr .any) trivial _ ?_ ?_
  · refine List.nodup_cons.2 ⟨?_, List.nodup_cons.2 ⟨List.not_mem_nil, List.nodup_nil⟩⟩
    intro h
    rcases List.mem_cons.1 h with h | h
    · have h := Option.some.inj h
      injection h with h
      revert h
      decide
    · cases h
  · intro e he
    rcases List.mem_cons.1 he with rfl | he
    · exact ⟨_, rfl, _, rfl⟩
    · rcases List.mem_cons.1 he with rfl | he
      · exact ⟨_, rfl, _, rfl⟩
      · cases he

/-- C152: an integer type written by name is not read again; a boolean type is. -/
example : writeKey levels (.named (.int .w8) 0) (1 : BitVec 8) = .ok (lit "low") ∧ readKey levels (.named (.int .w8) 0) (lit "low") = .err ∧
    writeKey levels (.named .bool 0) true = .ok (lit "on") ∧ readKey levels (.named .bool 0) (lit "on") = .ok true := ⟨rfl, rfl, rfl, rfl⟩

/-- C152: the key 2^64 - 1 is written as -1. -/
example : writeMap levels (.uint .w64) [(BitVec.allOnes 64, .nil)] = .ok [(lit "-1", .nil)] ∧ readMap levels (.uint .w64) [(lit "-1", .nil)] = .err := ⟨by with_unfolding_all rfl, by with_unfolding_all rfl⟩

/-- C152: a time is read but not written. -/
example : readMap levels .time [(lit "2020-01-02T03:04:05Z", .nil)] = .ok [(true, .nil)] ∧ writeMap levels .time [((true : Bool), .nil)] = .err :=
  ⟨(C152_time_violated levels (true : Bool) _ (XT_time (true : Bool)) .nil).1, rfl⟩

end Verif.Enc.Keys

import Verif.Ws.Inspect
import Verif.Enc.TypedProps
/-!
# C148: objects registered for RPC over websockets
-/
set_option autoImplicit false
namespace Verif.Ws.Inspect
open Verif.Strconv Verif.Enc Verif.Ws
open Verif.Http (Bytes utf8)

/-! ### names -/

theorem utf8_cons (c : Char) (s : Str) : utf8 (c :: s) = String.utf8EncodeChar c ++ utf8 s := by simp [utf8]

theorem head_eq (c d : Char) (a b : Bytes) (h : String.utf8EncodeChar c ++ a = String.utf8EncodeChar d ++ b) : c = d := by
  have h1 := ByteArray.utf8DecodeChar?_utf8EncodeChar_append (b := a.toByteArray) (c := c)
  have h2 := ByteArray.utf8DecodeChar?_utf8EncodeChar_append (b := b.toByteArray) (c := d)
  rw [← List.toByteArray_append] at h1 h2
  rw [h, h2] at h1
  exact (Option.some.inj h1).symm

theorem encode_cons (c : Char) : ∃ b l, String.utf8EncodeChar c = b :: l ∧ b.IsUTF8FirstByte := by
  cases h : String.utf8EncodeChar c with
  | nil => exact absurd h String.utf8EncodeChar_ne_nil
  | cons b l =>
    have := UInt8.isUTF8FirstByte_getElem_zero_utf8EncodeChar (c := c)
    simp only [h, List.getElem_cons_zero] at this
    exact ⟨b, l, rfl, this⟩

theorem utf8_inj : ∀ (s t : Str), utf8 s = utf8 t → s = t
  | [], [], _ => rfl
  | [], c :: t, h => by
    obtain ⟨b, l, e, -⟩ := encode_cons c
    rw [utf8_cons, e] at h; simp [utf8] at h
  | c :: s, [], h => by
    obtain ⟨b, l, e, -⟩ := encode_cons c
    rw [utf8_cons, e] at h; simp [utf8] at h
  | c :: s, d :: t, h => by
    rw [utf8_cons, utf8_cons] at h
    have := head_eq c d _ _ h
    subst this
    rw [utf8_inj s t (List.append_cancel_left h)]

theorem ascii (c : Char) (h : c.toNat < 128) : String.utf8EncodeChar c = [c.val.toUInt8] := by
  have : c.utf8Size = 1 := by
    rw [Char.utf8Size]
    have : c.val ≤ 0x7f := by
      show c.val.toNat ≤ _
      have : c.val.toNat < 128 := h
      exact Nat.le_of_lt_succ this
    simp [this]
  exact String.utf8EncodeChar_eq_singleton this

theorem lower_ascii (c : Char) (h : c.toNat < 128) :
    (if 65 ≤ c.val.toUInt8 ∧ c.val.toUInt8 ≤ 90 then [c.val.toUInt8 + 32] else if c.val.toUInt8 < 128 then [c.val.toUInt8] else [0xEF, 0xBF, 0xBD]) = String.utf8EncodeChar c.toLower := by
  have key : ∀ n : Nat, n < 128 → ∀ hv : n.isValidChar,
      (if 65 ≤ (Char.ofNatAux n hv).val.toUInt8 ∧ (Char.ofNatAux n hv).val.toUInt8 ≤ 90 then [(Char.ofNatAux n hv).val.toUInt8 + 32]
        else if (Char.ofNatAux n hv).val.toUInt8 < 128 then [(Char.ofNatAux n hv).val.toUInt8] else [0xEF, 0xBF, 0xBD]) = String.utf8EncodeChar (Char.ofNatAux n hv).toLower := by decide +kernel
  have hv : c.toNat.isValidChar := c.valid
  have e : Char.ofNatAux c.toNat hv = c := by
    apply Char.ext; apply UInt32.toNat.inj; rfl
  have := key c.toNat h hv
  rwa [e] at this

/-- C148: a frame can name a thing exactly if the first letter of its name is ASCII, and then by the name with that letter lowered. -/
theorem C148_name (n p : Str) : utf8 p = toLowerFirst (utf8 n) ↔ lowered n = some p := by
  cases n with
  | nil =>
    simp only [lowered, Option.some.injEq]
    constructor
    · intro h; exact (utf8_inj p [] h).symm
    · rintro rfl; rfl
  | cons c s =>
    by_cases hc : c.toNat < 128
    · simp only [lowered, if_pos hc, Option.some.injEq]
      have e : toLowerFirst (utf8 (c :: s)) = utf8 (c.toLower :: s) := by
        rw [utf8_cons, utf8_cons, ascii c hc, List.singleton_append]
        simp only [toLowerFirst]
        rw [lower_ascii c hc]
      rw [e]
      exact ⟨fun h => (utf8_inj _ _ h).symm, fun h => by rw [h]⟩
    · simp only [lowered, if_neg hc, reduceCtorEq, iff_false]
      intro h
      have hlen : 1 < (String.utf8EncodeChar c).length := by
        rw [String.length_utf8EncodeChar, Char.utf8Size]
        have : ¬ c.val ≤ 0x7f := by
          intro hh
          have : c.val.toNat ≤ 127 := hh
          exact hc (Nat.lt_succ_of_le this)
        split
        · rename_i hh; exact absurd hh this
        · split <;> (try split) <;> omega
      have hx := UInt8.isUTF8FirstByte_getElem_utf8EncodeChar (c := c) (i := 1) (hi := hlen)
      have h0 := UInt8.isUTF8FirstByte_getElem_utf8EncodeChar (c := c) (i := 0) (hi := by omega)
      cases hb : String.utf8EncodeChar c with
      | nil => rw [hb] at hlen; simp at hlen
      | cons b l =>
        cases l with
        | nil => rw [hb] at hlen; simp at hlen
        | cons x l =>
          simp only [hb, List.getElem_cons_zero, List.getElem_cons_succ, Nat.one_ne_zero, iff_false] at hx h0
          have hbig : ¬ b < 128 := by
            intro hlt
            have hn : b.toNat < 128 := hlt
            have hv : b.toNat.isValidChar := Or.inl (by omega)
            have hd : (Char.ofNatAux b.toNat hv).toNat = b.toNat := rfl
            have e1 := ascii (Char.ofNatAux b.toNat hv) (by omega)
            have e2 : (Char.ofNatAux b.toNat hv).val.toUInt8 = b := by
              apply UInt8.toNat.inj
              rw [UInt32.toNat_toUInt8]
              show b.toNat % 2 ^ 8 = _
              omega
            rw [e2] at e1
            have := head_eq (Char.ofNatAux b.toNat hv) c (x :: l) [] (by rw [e1, hb]; simp)
            rw [← this] at hc
            omega
          have e : toLowerFirst (utf8 (c :: s)) = String.utf8EncodeChar '�' ++ (x :: (l ++ utf8 s)) := by
            rw [utf8_cons, hb]
            simp only [List.cons_append, toLowerFirst]
            rw [if_neg (by rintro ⟨-, h⟩; apply hbig; exact UInt8.lt_of_le_of_lt h (by decide)), if_neg hbig]
            rfl
          rw [e] at h
          cases p with
          | nil => simp [utf8] at h
          | cons d p =>
            rw [utf8_cons] at h
            have hd := head_eq _ _ _ _ h
            subst hd
            have h2 := List.append_cancel_left h
            cases p with
            | nil => simp [utf8] at h2
            | cons d p =>
              obtain ⟨b', l', e', hf⟩ := encode_cons d
              rw [utf8_cons, e', List.cons_append] at h2
              injection h2 with h3 _
              subst h3
              exact hx hf

example : toLowerFirst (utf8 (lit "Élan")) = [0xEF, 0xBF, 0xBD, 0x89, 0x6C, 0x61, 0x6E] ∧ lowered (lit "Élan") = none ∧ lowered (lit "GetAll") = some (lit "getAll") := by decide +kernel

/-! ### specification -/

section
variable {X : Ext} {V : Type}

/-- A method takes a connection and at most one argument. -/
def Shape (m : Decl X (List V)) : Prop := ∃ p rest, m.params = p :: rest ∧ p.conn = true ∧ rest.length ≤ 1

/-- A method for clients: it is of that shape, and not the constructor. -/
def Callable (m : Decl X (List V)) : Prop := m.name ≠ lit "Init" ∧ Shape m

/-- The name clients use. -/
def Named (n p : Str) : Prop := ∃ c s, n = c :: s ∧ c.toNat < 128 ∧ p = c.toLower :: s

/-- Exported names start with a capital. -/
def Exported (n : Str) : Prop := ∃ c s, n = c :: s ∧ (c.toNat < 128 → c.isUpper = true)

/-- A Go type: its methods have different, exported names. -/
def Proper (T : TypeDecl X V) : Prop := (T.methods.map Decl.name).Nodup ∧ ∀ m ∈ T.methods, Exported m.name

/-- The result of a call is what the method did, its last result being an error or nil. -/
def Does (r : Ran (List V) (Node X)) (o : Outcome (List V) (Node X)) : Prop :=
  o.st = r.st ∧ o.acts = r.acts ∧ (r.ret = .none ∨ r.ret = .nil → o.res = .ok) ∧ ∀ v t, r.ret = .error v t → o.res = .err v t

/-! ### lemmas -/

theorem lowered_named (n p : Str) (hn : Exported n) : lowered n = some p ↔ Named n p := by
  obtain ⟨c, s, rfl, -⟩ := hn
  constructor
  · intro h
    by_cases hc : c.toNat < 128
    · simp only [lowered, if_pos hc, Option.some.injEq] at h
      exact ⟨c, s, rfl, hc, h.symm⟩
    · simp [lowered, if_neg hc] at h
  · rintro ⟨c', s', e, hc, rfl⟩
    injection e with e1 e2
    subst e1 e2
    simp [lowered, hc]

theorem toLower_inj (c d : Char) (hc : c.isUpper = true) (hd : d.isUpper = true) (h : c.toLower = d.toLower) : c = d := by
  simp only [Char.isUpper, ge_iff_le, decide_eq_true_eq] at hc hd
  have key : ∀ n : Fin 128, ∀ m : Fin 128, 65 ≤ n.val → n.val ≤ 90 → 65 ≤ m.val → m.val ≤ 90 → (Char.ofNat n.val).toLower = (Char.ofNat m.val).toLower → n = m := by decide +kernel
  have h1 : 65 ≤ c.toNat ∧ c.toNat ≤ 90 := ⟨hc.1, hc.2⟩
  have h2 : 65 ≤ d.toNat ∧ d.toNat ≤ 90 := ⟨hd.1, hd.2⟩
  have := key ⟨c.toNat, by omega⟩ ⟨d.toNat, by omega⟩ h1.1 h1.2 h2.1 h2.2 (by simpa using h)
  have : c.toNat = d.toNat := by simpa using congrArg Fin.val this
  exact Char.toNat_inj.1 this

theorem named_inj (n n' p : Str) (h : Named n p) (h' : Named n' p) (hn : Exported n) (hn' : Exported n') : n = n' := by
  obtain ⟨c, s, rfl, hc, rfl⟩ := h
  obtain ⟨d, t, rfl, hd, e⟩ := h'
  obtain ⟨c', s', e1, hu⟩ := hn
  obtain ⟨d', t', e2, hu'⟩ := hn'
  injection e with e3 e4
  injection e1 with a1 a2
  injection e2 with b1 b2
  subst a1 b1
  rw [toLower_inj c d (hu hc) (hu' hd) e3, e4]

/-- The method as an entry, if it is one for clients. reflect.go L131-162. -/
def item [DecidableEq V] (m : Decl X (List V)) : Option (Entry X (List V)) := if m.name = lit "Init" then none else entry m

theorem scan_fold [DecidableEq V] : ∀ (ms : List (Decl X (List V))) (b : Builder X V),
    (ms.foldl scan b).name = b.name ∧ (ms.foldl scan b).type = b.type ∧ (ms.foldl scan b).fields = b.fields ∧ (ms.foldl scan b).methods = b.methods ++ ms.filterMap item
  | [], b => by simp
  | m :: ms, b => by
    obtain ⟨h1, h2, h3, h4⟩ := scan_fold ms (scan b m)
    rw [List.foldl_cons, h1, h2, h3, h4]
    unfold scan
    cases he : entry m with
    | none =>
      have : item m = none := by unfold item; split <;> simp [he]
      simp [this]
    | some e =>
      simp only
      split
      · rename_i hi
        have : item m = none := by simp [item, hi]
        simp [this]
      · rename_i hi
        have : item m = some e := by simp [item, hi, he]
        simp [this]

theorem entry_decl [DecidableEq V] (m : Decl X (List V)) (e : Entry X (List V)) (h : entry m = some e) : e.decl = m ∧ e.name = toLowerFirst (utf8 m.name) := by
  unfold entry at h
  split at h <;> (try split at h) <;> simp at h <;> subst h <;> exact ⟨rfl, rfl⟩

theorem item_some [DecidableEq V] (m : Decl X (List V)) : (∃ e, item m = some e) ↔ Callable m := by
  unfold item entry Callable Shape
  constructor
  · rintro ⟨e, h⟩
    split at h
    · cases h
    · rename_i hi
      refine ⟨hi, ?_⟩
      split at h
      · rename_i p hp
        split at h
        · rename_i hc; exact ⟨p, [], hp, hc, by simp⟩
        · cases h
      · rename_i p q hp
        split at h
        · rename_i hc; exact ⟨p, [q], hp, hc, by simp⟩
        · cases h
      · cases h
  · rintro ⟨hi, p, rest, hp, hc, hl⟩
    rw [if_neg hi, hp]
    match rest, hl with
    | [], _ => exact ⟨_, if_pos hc⟩
    | [q], _ => exact ⟨_, if_pos hc⟩

theorem item_decl [DecidableEq V] (m : Decl X (List V)) (e : Entry X (List V)) (h : item m = some e) : e.decl = m ∧ e.name = toLowerFirst (utf8 m.name) := by
  unfold item at h
  split at h
  · cases h
  · exact entry_decl m e h

theorem lookupKey_filterMap {α β : Type} (key : α → Option Str) (val : α → β) (p : Str) : ∀ l : List α,
    lookupKey p (l.filterMap fun a => (key a).map fun k => (k, val a)) = (l.find? fun a => key a = some p).map val
  | [] => rfl
  | a :: l => by
    have ih := lookupKey_filterMap key val p l
    rw [List.filterMap_cons, List.find?_cons]
    cases hk : key a with
    | none => simpa [hk] using ih
    | some k =>
      simp only [Option.map_some, lookupKey]
      by_cases he : p = k
      · subst he; simp
      · rw [if_neg he, ih]
        have : decide (some k = some p) = false := by simp [Ne.symm he]
        rw [this]

theorem find_unique {α : Type} (q : α → Bool) (l : List α) (a : α) (ha : a ∈ l) (hq : q a = true) (hu : ∀ b ∈ l, q b = true → b = a) : l.find? q = some a := by
  cases h : l.find? q with
  | none => exact absurd hq (by have := List.find?_eq_none.1 h a ha; simpa using this)
  | some b => rw [hu b (List.mem_of_find?_eq_some h) (List.find?_some h)]


theorem mem_nonZero [DecidableEq V] : ∀ (fs : List (Field V)) (vs : List V) (k i : Nat), i ∈ nonZero k fs vs ↔ ∃ j f v, i = k + j ∧ fs[j]? = some f ∧ vs[j]? = some v ∧ v ≠ f.zero
  | [], vs, k, i => by simp [nonZero]
  | f :: fs, [], k, i => by simp [nonZero]
  | f :: fs, v :: vs, k, i => by
    have ih := mem_nonZero fs vs (k + 1) i
    have step : (∃ j f' v', i = k + j ∧ (f :: fs)[j]? = some f' ∧ (v :: vs)[j]? = some v' ∧ v' ≠ f'.zero) ↔
        (i = k ∧ v ≠ f.zero) ∨ ∃ j f' v', i = k + 1 + j ∧ fs[j]? = some f' ∧ vs[j]? = some v' ∧ v' ≠ f'.zero := by
      constructor
      · rintro ⟨j, f', v', h1, h2, h3, h4⟩
        cases j with
        | zero => simp at h1 h2 h3; subst h2 h3; exact .inl ⟨h1, h4⟩
        | succ j => exact .inr ⟨j, f', v', by omega, by simpa using h2, by simpa using h3, h4⟩
      · rintro (⟨h1, h2⟩ | ⟨j, f', v', h1, h2, h3, h4⟩)
        · exact ⟨0, f, v, by omega, rfl, rfl, h2⟩
        · exact ⟨j + 1, f', v', by omega, by simpa using h2, by simpa using h3, h4⟩
    rw [step, nonZero]
    split
    · rename_i hz; rw [ih]; simp [hz]
    · rename_i hz; rw [List.mem_cons, ih]; simp [hz]

theorem setFields_none (T : TypeDecl X V) (cur : List V) : ∀ (is : List Nat) (st : List V), (∃ i ∈ is, ∃ f, T.fields[i]? = some f ∧ f.exported = false) → setFields T cur is st = none
  | [], st, h => by simp at h
  | i :: is, st, ⟨k, hk, f, hf, he⟩ => by
    rw [setFields]
    cases hi : T.fields[i]? with
    | none => rfl
    | some g =>
      simp only
      split
      · rename_i hg
        rcases List.mem_cons.1 hk with rfl | hk
        · rw [hi] at hf; injection hf with hf; subst hf; rw [hg] at he; cases he
        · exact setFields_none T cur is _ ⟨k, hk, f, hf, he⟩
      · rfl

theorem setFields_some (T : TypeDecl X V) (cur : List V) (hl : cur.length = T.fields.length) : ∀ (is : List Nat) (st : List V), st.length = T.fields.length →
    (∀ i ∈ is, ∃ f, T.fields[i]? = some f ∧ f.exported = true) →
    ∃ st', setFields T cur is st = some st' ∧ st'.length = st.length ∧ ∀ j, st'[j]? = if j ∈ is then cur[j]? else st[j]?
  | [], st, _, _ => ⟨st, rfl, rfl, fun j => by simp⟩
  | i :: is, st, hs, h => by
    obtain ⟨f, hf, he⟩ := h i (List.mem_cons_self ..)
    have hi : i < T.fields.length := by
      rcases List.getElem?_eq_some_iff.1 hf with ⟨h, -⟩; exact h
    obtain ⟨st', h1, h2, h3⟩ := setFields_some T cur hl is (st.set i (cur.getD i f.zero)) (by simpa using hs) (fun k hk => h k (List.mem_cons_of_mem _ hk))
    refine ⟨st', by rw [setFields, hf]; simpa [he] using h1, by simpa using h2, fun j => ?_⟩
    rw [h3 j]
    by_cases hm : j ∈ is
    · simp [hm]
    · by_cases hj : j = i
      · subst hj
        simp [hm, List.getElem?_set_self (by omega : j < st.length), List.getElem?_eq_getElem (by omega : j < cur.length), List.getD]
      · simp [hm, hj, List.getElem?_set_ne (Ne.symm hj)]

/-! ### C148 -/

section
variable [DecidableEq V]

/-- C148: what can be registered are pointers to structs, with whatever methods and fields; what is neither a struct nor a pointer is an error. -/
theorem C148_accepted_partial (T : TypeDecl X V) (vals : List V) : (∃ b, inspect (.ptr T vals) = .ok b ∧ b.type = T) ∧ inspect (.other : Given X V) = .err :=
  ⟨⟨_, rfl, (scan_fold T.methods _).2.1⟩, rfl⟩

/-- C148, violated: a struct is no error, and does not work either, though the message of the error says it would: it panics. So do pointers that are nil or point to something else. -/
theorem C148_accepted_violated (T : TypeDecl X V) (vals : List V) : inspect (.struct T vals) = .panic ∧ inspect (.nilPtr T) = .panic ∧ inspect (.ptrOther : Given X V) = .panic := ⟨rfl, rfl, rfl⟩

theorem inspected (T : TypeDecl X V) (vals : List V) (b : Builder X V) (hb : inspect (.ptr T vals) = .ok b) :
    b.type = T ∧ b.fields = nonZero 0 T.fields vals ∧ b.methods = T.methods.filterMap item := by
  injection hb with hb
  obtain ⟨-, h2, h3, h4⟩ := scan_fold T.methods ⟨toLowerFirst (utf8 T.name), T, nonZero 0 T.fields vals, none, []⟩
  subst hb
  exact ⟨h2, h3, by rw [h4]; rfl⟩

omit [DecidableEq V] in
theorem scan_init : ∀ (ms : List (Decl X (List V))) (b : Builder X V), (ms.map Decl.name).Nodup →
    ((∀ m ∈ ms, m.name ≠ lit "Init") → (ms.foldl scan b).constructor = b.constructor) ∧
    ∀ m ∈ ms, m.name = lit "Init" → (ms.foldl scan b).constructor = (match entry m with | some e => some e | none => b.constructor)
  | [], b, _ => by simp
  | m :: ms, b, hnd => by
    simp only [List.map_cons, List.nodup_cons] at hnd
    obtain ⟨h1, h2⟩ := scan_init ms (scan b m) hnd.2
    have hs : m.name ≠ lit "Init" → (scan b m).constructor = b.constructor := by
      intro h
      unfold scan
      split
      · rfl
      · rw [if_neg h]
    refine ⟨fun h => ?_, fun m' hm' hi => ?_⟩
    · rw [List.foldl_cons, h1 (fun m' hm' => h m' (List.mem_cons_of_mem _ hm')), hs (h m (List.mem_cons_self ..))]
    · rcases List.mem_cons.1 hm' with rfl | hm'
      · rw [List.foldl_cons, h1 (fun x hx hxi => hnd.1 (List.mem_map.2 ⟨x, hx, by rw [hxi, hi]⟩))]
        unfold scan
        cases entry m' with
        | none => rfl
        | some e => simp only [hi, if_true]
      · rw [List.foldl_cons, h2 m' hm' hi, hs (fun h => hnd.1 (List.mem_map.2 ⟨m', hm', by rw [hi, h]⟩))]

variable (O : Order) (fault : Str → Option (Node X) → Node X × Node X)

theorem methods_eq (T : TypeDecl X V) (vals cur : List V) (b : Builder X V) (hb : inspect (.ptr T vals) = .ok b) (p : Str) :
    b.methods = T.methods.filterMap item ∧ lookupKey p (b.toClass O fault cur).methods = ((T.methods.filterMap item).find? fun e => lowered e.decl.name = some p).map (call O fault) := by
  have := (inspected T vals b hb).2.2
  refine ⟨this, ?_⟩
  rw [← this]
  exact lookupKey_filterMap _ _ _ _

omit [DecidableEq V] in
theorem decl_unique (l : List (Decl X (List V))) (hnd : (l.map Decl.name).Nodup) (m m' : Decl X (List V)) (hm : m ∈ l) (hm' : m' ∈ l) (hnn : m'.name = m.name) : m' = m := by
  induction l with
  | nil => cases hm
  | cons a l ih =>
    simp only [List.map_cons, List.nodup_cons] at hnd
    rcases List.mem_cons.1 hm with rfl | hm1 <;> rcases List.mem_cons.1 hm' with rfl | hm2
    · rfl
    · exact absurd (List.mem_map.2 ⟨m', hm2, hnn⟩) hnd.1
    · exact absurd (List.mem_map.2 ⟨m, hm1, hnn.symm⟩) hnd.1
    · exact ih hnd.2 hm1 hm2

theorem found (T : TypeDecl X V) (hT : Proper T) (m : Decl X (List V)) (hm : m ∈ T.methods) (e : Entry X (List V)) (he : item m = some e) (p : Str) (hp : Named m.name p) :
    ∀ e' ∈ T.methods.filterMap item, lowered e'.decl.name = some p → e' = e := by
  intro e' he' hl
  obtain ⟨m', hm', hi⟩ := List.mem_filterMap.1 he'
  have hd := (item_decl m' e' hi).1
  rw [hd] at hl
  have hn := (lowered_named _ p (hT.2 m' hm')).1 hl
  have hnn := named_inj _ _ _ hn hp (hT.2 m' hm') (hT.2 m hm)
  have := decl_unique T.methods hT.1 m m' hm hm' hnn
  rw [this, he] at hi
  injection hi with hi
  exact hi.symm

/-- C148: the methods a client can call are those of the right shape, by their names. -/
theorem C148_methods_partial (T : TypeDecl X V) (hT : Proper T) (vals cur : List V) (b : Builder X V) (hb : inspect (.ptr T vals) = .ok b) (p : Str) :
    lookupKey p (b.toClass O fault cur).methods ≠ none ↔ ∃ m ∈ T.methods, Callable m ∧ Named m.name p := by
  rw [(methods_eq O fault T vals cur b hb p).2]
  constructor
  · intro h
    cases hf : (T.methods.filterMap item).find? fun e => lowered e.decl.name = some p with
    | none => rw [hf] at h; exact absurd rfl h
    | some e =>
      obtain ⟨m, hm, hi⟩ := List.mem_filterMap.1 (List.mem_of_find?_eq_some hf)
      have hl := List.find?_some hf
      simp only [decide_eq_true_eq] at hl
      rw [(item_decl m e hi).1] at hl
      exact ⟨m, hm, (item_some m).1 ⟨e, hi⟩, (lowered_named _ p (hT.2 m hm)).1 hl⟩
  · rintro ⟨m, hm, hc, hn⟩
    obtain ⟨e, he⟩ := (item_some m).2 hc
    have hl : lowered e.decl.name = some p := by rw [(item_decl m e he).1]; exact (lowered_named _ p (hT.2 m hm)).2 hn
    rw [find_unique _ _ e (List.mem_filterMap.2 ⟨m, hm, he⟩) (by simpa using hl) (fun e' h1 h2 => found T hT m hm e he p hn e' h1 (by simpa using h2))]
    simp

/-- C148: this is the map of functions that Go makes, looked up with the bytes of the path. -/
theorem C148_map (T : TypeDecl X V) (hT : Proper T) (vals cur : List V) (b : Builder X V) (hb : inspect (.ptr T vals) = .ok b) (p : Str) :
    lookupKey p (b.toClass O fault cur).methods = (b.find (utf8 p)).map (call O fault) := by
  obtain ⟨h1, h2⟩ := methods_eq O fault T vals cur b hb p
  rw [h2, Builder.find, h1]
  congr 1
  have hq : ∀ e ∈ T.methods.filterMap item, (e.name = utf8 p ↔ lowered e.decl.name = some p) := by
    intro e he
    obtain ⟨m, hm, hi⟩ := List.mem_filterMap.1 he
    rw [(item_decl m e hi).2, (item_decl m e hi).1, ← C148_name]
    exact eq_comm
  cases hf : (T.methods.filterMap item).find? fun e => lowered e.decl.name = some p with
  | none =>
    symm
    rw [List.find?_eq_none]
    intro e he
    have he := List.mem_reverse.1 he
    have := List.find?_eq_none.1 hf e he
    simp only [decide_eq_true_eq] at this ⊢
    rwa [hq e he]
  | some e =>
    have he := List.mem_of_find?_eq_some hf
    have hl := List.find?_some hf
    simp only [decide_eq_true_eq] at hl
    obtain ⟨m, hm, hi⟩ := List.mem_filterMap.1 he
    have hn : Named m.name p := by rw [(item_decl m e hi).1] at hl; exact (lowered_named _ p (hT.2 m hm)).1 hl
    symm
    refine find_unique _ _ e (List.mem_reverse.2 he) (by simpa using (hq e he).2 hl) fun e' h3 h4 => ?_
    have h3 := List.mem_reverse.1 h3
    exact found T hT m hm e hi p hn e' h3 ((hq e' h3).1 (by simpa using h4))

/-- A call of a method does what the method does with the data read as its argument; data that can not be read is the error `fault` gives for it, and the method is not run. -/
def Calls (m : Decl X (List V)) (f : Method (List V) (Node X)) : Prop := ∀ st data,
  (∀ q, m.params = [q] → Does (m.run st []) (f st data)) ∧
  ∀ q r, m.params = [q, r] → m.variadic = false →
    let u := (⟨none⟩ : Handler X).unmarshal O r.ty data (zero X r.ty)
    (u.st = .ok → Does (m.run st [⟨r.ty, u.val⟩]) (f st data)) ∧
    (u.st = .err → (f st data).st = st ∧ (f st data).acts = [] ∧ (f st data).res = .err (fault m.name data).1 (fault m.name data).2)

theorem call_calls (m : Decl X (List V)) (e : Entry X (List V)) (he : entry m = some e) : Calls O fault m (call O fault e) := by
  intro st data
  have hd := (entry_decl m e he).1
  refine ⟨fun q hq => ?_, fun q r hq hv => ?_⟩
  · have ha : e.argument = none := by
      rw [entry, hq] at he
      simp only at he
      split at he
      · injection he with he; rw [← he]
      · cases he
    simp only [call, ha, hd]
    refine ⟨rfl, rfl, ?_, ?_⟩
    · rintro (h | h) <;> simp [finish, h]
    · intro v t h; simp [finish, h]
  · have ha : e.argument = some r.ty := by
      rw [entry, hq] at he
      simp only at he
      split at he
      · injection he with he; rw [← he]
      · cases he
    simp only [call, ha, hd]
    refine ⟨fun h => ?_, fun h => ?_⟩
    · simp only [h, apply, hv]
      refine ⟨rfl, rfl, ?_, ?_⟩
      · rintro (h | h) <;> simp [finish, h]
      · intro v t h; simp [finish, h]
    · simp [h]

/-- C148: a call runs the method on the object of the channel. -/
theorem C148_call_partial (T : TypeDecl X V) (hT : Proper T) (vals cur : List V) (b : Builder X V) (hb : inspect (.ptr T vals) = .ok b) (m : Decl X (List V)) (hm : m ∈ T.methods)
    (hc : Callable m) (p : Str) (hp : Named m.name p) : ∃ f, lookupKey p (b.toClass O fault cur).methods = some f ∧ Calls O fault m f := by
  obtain ⟨e, he⟩ := (item_some m).2 hc
  have hd := (item_decl m e he).1
  have hl : lowered e.decl.name = some p := by rw [hd]; exact (lowered_named _ p (hT.2 m hm)).2 hp
  refine ⟨call O fault e, ?_, call_calls O fault m e (by rwa [item, if_neg hc.1] at he)⟩
  rw [(methods_eq O fault T vals cur b hb p).2,
    find_unique _ _ e (List.mem_filterMap.2 ⟨m, hm, he⟩) (by simpa using hl) (fun e' h1 h2 => found T hT m hm e he p hp e' h1 (by simpa using h2))]
  rfl

/-- C148: the constructor is the method `Init`, if it has the right shape, and otherwise there is none. -/
theorem C148_init_partial (T : TypeDecl X V) (hT : Proper T) (vals cur : List V) (b : Builder X V) (hb : inspect (.ptr T vals) = .ok b) :
    ((∀ m ∈ T.methods, m.name ≠ lit "Init") → (b.toClass O fault cur).init = none) ∧
    ∀ m ∈ T.methods, m.name = lit "Init" → (Shape m → ∃ f, (b.toClass O fault cur).init = some f ∧ Calls O fault m f) ∧ (¬ Shape m → (b.toClass O fault cur).init = none) := by
  injection hb with hb
  subst hb
  obtain ⟨h1, h2⟩ := scan_init T.methods ⟨toLowerFirst (utf8 T.name), T, nonZero 0 T.fields vals, none, []⟩ hT.1
  refine ⟨fun h => by simp only [Builder.toClass, h1 h, Option.map_none], fun m hm hi => ?_⟩
  have hc := h2 m hm hi
  refine ⟨fun hp => ?_, fun hp => ?_⟩
  · obtain ⟨p, rest, hp, hpc, hl⟩ := hp
    have : ∃ e, entry m = some e := by
      rw [entry, hp]
      match rest, hl with
      | [], _ => exact ⟨_, if_pos hpc⟩
      | [q], _ => exact ⟨_, if_pos hpc⟩
    obtain ⟨e, he⟩ := this
    rw [he] at hc
    exact ⟨call O fault e, by simp only [Builder.toClass, hc, Option.map_some], call_calls O fault m e he⟩
  · have : entry m = none := by
      rw [entry]
      split
      · rename_i p hm; exact if_neg fun hc => hp ⟨p, [], hm, hc, by simp⟩
      · rename_i p q hm; exact if_neg fun hc => hp ⟨p, [q], hm, hc, by simp⟩
      · rfl
    rw [this] at hc
    simp only [Builder.toClass, hc, Option.map_none]

/-- C148: if no field that is not exported is set, a new channel has an object with the fields of the registered one, those that were zero then being zero, the others as they are now. -/
theorem C148_fields_partial (T : TypeDecl X V) (vals cur : List V) (b : Builder X V) (hb : inspect (.ptr T vals) = .ok b) (hl' : cur.length = T.fields.length)
    (hx : ∀ (i : Nat) (f : Field V) v, T.fields[i]? = some f → vals[i]? = some v → f.exported = false → v = f.zero) :
    ∃ st, (b.toClass O fault cur).fresh = some st ∧ st.length = T.fields.length ∧
      ∀ (i : Nat) (f : Field V) v w, T.fields[i]? = some f → vals[i]? = some v → cur[i]? = some w → st[i]? = some (if v = f.zero then f.zero else w) := by
  obtain ⟨h2, h3, -⟩ := inspected T vals b hb
  have hm := fun i => mem_nonZero T.fields vals 0 i
  obtain ⟨st, e1, e2, e3⟩ := setFields_some T cur hl' (nonZero 0 T.fields vals) (T.fields.map Field.zero) (by simp) (by
    intro i hi
    obtain ⟨j, f, v, rfl, a, b, c⟩ := (hm i).1 hi
    rw [Nat.zero_add]
    refine ⟨f, a, ?_⟩
    cases he : f.exported with
    | true => rfl
    | false => exact absurd (hx j f v a b he) c)
  refine ⟨st, ?_, by simpa using e2, fun i f v w hf hv hw => ?_⟩
  · show Builder.fresh _ cur = _
    rw [Builder.fresh, h2, h3]; exact e1
  · rw [e3 i]
    have : i ∈ nonZero 0 T.fields vals ↔ v ≠ f.zero := by
      rw [hm i]
      constructor
      · rintro ⟨j, f', v', e, a, b, c⟩
        rw [Nat.zero_add] at e; subst e
        rw [hf] at a; rw [hv] at b
        injection a with a; injection b with b; subst a b
        exact c
      · intro h; exact ⟨i, f, v, by omega, hf, hv, h⟩
    by_cases hz : v = f.zero
    · rw [if_neg (by rw [this]; simpa using hz), if_pos hz]; simp [hf]
    · rw [if_pos (this.2 hz), if_neg hz, hw]

/-- C148: as long as the registered object is left alone, a new object is its copy. -/
theorem C148_copy_partial (T : TypeDecl X V) (vals : List V) (b : Builder X V) (hb : inspect (.ptr T vals) = .ok b) (hl : vals.length = T.fields.length)
    (hx : ∀ (i : Nat) (f : Field V) v, T.fields[i]? = some f → vals[i]? = some v → f.exported = false → v = f.zero) : (b.toClass O fault vals).fresh = some vals := by
  obtain ⟨st, h1, h2, h3⟩ := C148_fields_partial O fault T vals vals b hb hl hx
  rw [h1]
  congr 1
  apply List.ext_getElem?
  intro i
  by_cases hi : i < vals.length
  · have := h3 i T.fields[i] vals[i] vals[i] (List.getElem?_eq_getElem (by omega)) (List.getElem?_eq_getElem hi) (List.getElem?_eq_getElem hi)
    rw [this, List.getElem?_eq_getElem hi]
    split
    · rename_i h; rw [h]
    · rfl
  · rw [List.getElem?_eq_none (by omega), List.getElem?_eq_none (by omega)]

/-- C148, violated: if a field that is not exported is set, every open of a channel panics. -/
theorem C148_unexported_violated (T : TypeDecl X V) (vals cur : List V) (b : Builder X V) (hb : inspect (.ptr T vals) = .ok b) (i : Nat) (f : Field V) (v : V) (hf : T.fields[i]? = some f)
    (hv : vals[i]? = some v) (hu : f.exported = false) (hz : v ≠ f.zero) (reg : Registry (List V) (Node X)) (c : Conn (List V) (Node X)) (fr : Frame (Node X))
    (hr : lookupKey fr.path reg = some (b.toClass O fault cur)) (ht : fr.type = lit "new" ∨ fr.type = lit "open") : (onFrame reg c fr).2 = .panic := by
  obtain ⟨h2, h3, -⟩ := inspected T vals b hb
  have hn : (b.toClass O fault cur).fresh = none := by
    show Builder.fresh _ cur = _
    rw [Builder.fresh, h2, h3]
    exact setFields_none T cur _ _ ⟨i, (mem_nonZero T.fields vals 0 i).2 ⟨i, f, v, by omega, hf, hv, hz⟩, f, hf, hu⟩
  have hc : fr.type ≠ lit "close" := by rcases ht with h | h <;> rw [h] <;> decide
  rw [onFrame, if_neg hc, if_pos ht, hr]
  simp only [openChan, hn]

/-- C148, violated: of an object that is changed later, some fields are taken as they are now, others are zero: those that were zero when it was registered. -/
theorem C148_changed_violated : ∃ (T : TypeDecl X Nat) (b : Builder X Nat), inspect (.ptr T [0, 1]) = .ok b ∧ (b.toClass O fault [7, 7]).fresh = some [0, 7] :=
  ⟨⟨lit "Pair", [⟨true, 0⟩, ⟨true, 0⟩], []⟩, _, rfl, rfl⟩

/-- C148, violated: a method whose name starts with a letter that is not ASCII can not be called. -/
theorem C148_name_violated (m : Decl X (List V)) (c : Char) (s : Str) (hn : m.name = c :: s) (hc : ¬ c.toNat < 128) (e : Entry X (List V)) (he : item m = some e) (p : Str) : utf8 p ≠ e.name := by
  rw [(item_decl m e he).2, ne_eq, C148_name, hn]
  simp [lowered, hc]

/-- C148, violated: a method that returns something that is neither nil nor an error is run, but the call ends the connection, without an answer. -/
theorem C148_result_violated (T : TypeDecl X V) (hT : Proper T) (vals cur : List V) (b : Builder X V) (hb : inspect (.ptr T vals) = .ok b) (m : Decl X (List V)) (hm : m ∈ T.methods)
    (hc : Callable m) (q : Param) (hq : m.params = [q]) (st : List V) (hr : (m.run st []).ret = .other) (reg : Registry (List V) (Node X)) (c : Conn (List V) (Node X)) (f : Frame (Node X))
    (ht : f.type ≠ lit "new" ∧ f.type ≠ lit "open" ∧ f.type ≠ lit "close") (hp : Named m.name f.path)
    (hch : lookupKey f.channel c.chans = some (.bound (b.toClass O fault cur).methods st)) :
    (onFrame reg c f).2 = .err ∧ lookupKey f.channel (onFrame reg c f).1.chans = some (.bound (b.toClass O fault cur).methods (m.run st []).st) := by
  obtain ⟨e, he⟩ := (item_some m).2 hc
  have hd := (item_decl m e he).1
  have hl : lowered e.decl.name = some f.path := by rw [hd]; exact (lowered_named _ _ (hT.2 m hm)).2 hp
  have hlook : lookupKey f.path (b.toClass O fault cur).methods = some (call O fault e) := by
    rw [(methods_eq O fault T vals cur b hb f.path).2,
      find_unique _ _ e (List.mem_filterMap.2 ⟨m, hm, he⟩) (by simpa using hl) (fun e' h1 h2 => found T hT m hm e he _ hp e' h1 (by simpa using h2))]
    rfl
  have ha : e.argument = none := by
    unfold item at he
    rw [if_neg hc.1, entry, hq] at he
    simp only at he
    split at he
    · injection he with he; rw [← he]
    · cases he
  obtain ⟨h1, -, h3⟩ := C61_call reg c f ht _ st hch _ hlook
  have ho : call O fault e st f.data = ⟨(m.run st []).st, (m.run st []).acts, .panic⟩ := by simp only [call, ha, hd, finish, hr]
  rw [ho] at h1 h3
  exact ⟨h3, h1⟩

omit [DecidableEq V] in
/-- C148, violated: a variadic method can not be called, unless it takes values of type `any`; then it gets one, the whole list, whatever the client sent. -/
theorem C148_variadic_violated (e : Entry X (List V)) (hv : e.decl.variadic = true) (t : Ty) (ha : e.argument = some (.slice t)) (st : List V) (data : Option (Node X))
    (hu : ((⟨none⟩ : Handler X).unmarshal O (.slice t) data (zero X (.slice t))).st = .ok) :
    (t ≠ .any → call O fault e st data = ⟨st, [], .panic⟩) ∧
    (t = .any → ∃ a, (call O fault e st data).st = (e.decl.run st [a]).st) := by
  simp only [call, ha, hu, apply, hv, if_true]
  constructor
  · intro ht
    split
    · rename_i h; injection h with h; exact absurd h ht
    · rfl
  · rintro rfl
    exact ⟨_, rfl⟩

/-- C148: an object is found by the name of its type, and registering it leaves the others. -/
theorem C148_registered_partial (reg : Registry (List V) (Node X)) (T : TypeDecl X V) (vals cur : List V) (k : Str) (hk : Named T.name k) :
    ∃ b reg', inspect (.ptr T vals) = .ok b ∧ register O fault reg (.ptr T vals) cur = .ok reg' ∧ lookupKey k reg' = some (b.toClass O fault cur) ∧
      ∀ k', k' ≠ k → lookupKey k' reg' = lookupKey k' reg := by
  obtain ⟨c, s, hn, hc, rfl⟩ := hk
  have hl : lowered T.name = some (c.toLower :: s) := by rw [hn]; simp [lowered, hc]
  obtain ⟨b, hb, ht⟩ := (C148_accepted_partial T vals).1
  refine ⟨b, insertKey (c.toLower :: s) (b.toClass O fault cur) reg, hb, by simp only [register, hb, ht, hl], ?_, fun k' hk' => ?_⟩
  · rw [lookup_insertKey]; simp
  · rw [lookup_insertKey]; simp [hk']

/-- C148: from the registration of an object without constructor to the answer to a call of one of its methods, in a session of a client. -/
theorem C148_session_partial (T : TypeDecl X V) (hT : Proper T) (vals : List V) (hl : vals.length = T.fields.length)
    (hx : ∀ (i : Nat) (f : Field V) v, T.fields[i]? = some f → vals[i]? = some v → f.exported = false → v = f.zero) (hno : ∀ m ∈ T.methods, m.name ≠ lit "Init")
    (k : Str) (hk : Named T.name k) (m : Decl X (List V)) (hm : m ∈ T.methods) (hc : Callable m) (hv : m.variadic = false) (q r : Param) (hq : m.params = [q, r]) (p : Str) (hp : Named m.name p)
    (data : Option (Node X)) (u : Val X r.ty) (hu : (⟨none⟩ : Handler X).unmarshal O r.ty data (zero X r.ty) = .done u)
    (hret : (m.run vals [⟨r.ty, u⟩]).ret = .nil) (replies : List (Str × Node X)) (hacts : (m.run vals [⟨r.ty, u⟩]).acts = replies.map fun x => .reply x.1 x.2)
    (reg : Registry (List V) (Node X)) (ch : Str) (arg : Option (Node X)) :
    ∃ reg' c, register O fault reg (.ptr T vals) vals = .ok reg' ∧ runFrames reg' {} [⟨ch, k, lit "open", arg⟩, ⟨ch, p, [], data⟩] = (c, .ok) ∧
      c.out = replies.map (fun x => ⟨ch, x.1, [], some x.2⟩) ++ [⟨ch, p, lit "return", none⟩] := by
  obtain ⟨b, reg', hb, hreg, hlook, -⟩ := C148_registered_partial O fault reg T vals vals k hk
  have hfresh := C148_copy_partial O fault T vals b hb hl hx
  have hinit := (C148_init_partial O fault T hT vals vals b hb).1 hno
  obtain ⟨f, hf, hcalls⟩ := C148_call_partial O fault T hT vals vals b hb m hm hc p hp
  obtain ⟨d1, d2, d3, -⟩ := ((hcalls vals data).2 q r hq hv).1 (by rw [hu]; rfl)
  rw [show ((⟨none⟩ : Handler X).unmarshal O r.ty data (zero X r.ty)).val = u by rw [hu]; rfl] at d1 d2 d3
  have hres := d3 (.inr hret)
  have hopen : onFrame reg' ({} : Conn (List V) (Node X)) ⟨ch, k, lit "open", arg⟩ = ((({} : Conn (List V) (Node X)).store ch .unbound).store ch (.bound (b.toClass O fault vals).methods vals), .ok) := by
    rw [onFrame, if_neg (by simp only; decide), if_pos (.inr rfl)]
    simp only [hlook, openChan, hfresh, hinit]
  let c1 : Conn (List V) (Node X) := (({} : Conn (List V) (Node X)).store ch .unbound).store ch (.bound (b.toClass O fault vals).methods vals)
  have hch : lookupKey ch c1.chans = some (.bound (b.toClass O fault vals).methods vals) := by
    show lookupKey ch (Conn.store _ ch _).chans = _
    rw [lookup_store, if_pos rfl]
  obtain ⟨-, g2, g3⟩ := C61_call reg' c1 ⟨ch, p, [], data⟩ ⟨by simp only; decide, by simp only; decide, by simp only; decide⟩ _ vals hch f hf
  simp only [hres] at g2 g3
  obtain ⟨rs, e1, e2⟩ := g2 rfl (by rw [d2, hacts]; intro a ha; obtain ⟨x, -, rfl⟩ := List.mem_map.1 ha; exact ⟨_, _, rfl⟩)
  have hrs : rs = replies := by
    rw [d2, hacts] at e1
    have inj : ∀ (l l' : List (Str × Node X)), l.map (fun x => (Act.reply x.1 x.2 : Act (Node X))) = l'.map (fun x => .reply x.1 x.2) → l = l' := by
      intro l
      induction l with
      | nil => intro l' h; cases l' with | nil => rfl | cons _ _ => simp at h
      | cons a l ih =>
        intro l' h
        cases l' with
        | nil => simp at h
        | cons a' l' =>
          simp only [List.map_cons, List.cons.injEq, Act.reply.injEq] at h
          rw [ih l' h.2, show a = a' from Prod.ext h.1.1 h.1.2]
    exact (inj _ _ e1).symm
  refine ⟨reg', (onFrame reg' c1 ⟨ch, p, [], data⟩).1, hreg, ?_, ?_⟩
  · rw [runFrames, hopen]
    simp only
    rw [runFrames]
    cases ho : onFrame reg' c1 ⟨ch, p, [], data⟩ with
    | mk c2 r2 =>
      rw [ho] at g3
      simp only at g3
      subst g3
      rfl
  · rw [e2, hrs]; rfl

/-- C148, violated: two types whose names differ in the case of the first letter are one: the one registered last replaces the other, without an error. -/
theorem C148_same_violated (T T' : TypeDecl X V) (c : Char) (s : Str) (hc : c.toNat < 128) (hT : T.name = c :: s) (hT' : T'.name = c.toLower :: s) (vals vals' : List V)
    (reg : Registry (List V) (Node X)) :
    ∃ r r' b, register O fault reg (.ptr T vals) vals = .ok r ∧ register O fault r (.ptr T' vals') vals' = .ok r' ∧ inspect (.ptr T' vals') = .ok b ∧
      lookupKey (c.toLower :: s) r' = some (b.toClass O fault vals') := by
  have hl : c.toLower.toNat < 128 ∧ c.toLower.toLower = c.toLower := by
    have key : ∀ n : Fin 128, (Char.ofNat n.val).toLower.toNat < 128 ∧ (Char.ofNat n.val).toLower.toLower = (Char.ofNat n.val).toLower := by decide +kernel
    simpa using key ⟨c.toNat, hc⟩
  obtain ⟨b, r, h1, h2, -⟩ := C148_registered_partial O fault reg T vals vals (c.toLower :: s) ⟨c, s, hT, hc, rfl⟩
  obtain ⟨b', r', h1', h2', h3, -⟩ := C148_registered_partial O fault r T' vals' vals' (c.toLower :: s) ⟨c.toLower, s, hT', hl.1, by rw [hl.2]⟩
  exact ⟨r, r', b', h2, h2', h1', h3⟩

end
end

/-! ### a concrete object -/

section


/-- `type Counter struct { Step int64; total int64 }` with `Add(c, n int8) error`, `Total(c) int64`, which forgets the error, and `Élan(c)`. Values are integers. -/
def counterTy (total : Bool) : TypeDecl XT Int :=
  { name := lit "Counter", fields := [⟨true, 0⟩, ⟨total, 0⟩],
    methods := [
      { name := lit "Add", params := [⟨true, .any⟩, ⟨false, .int .w8⟩], run := fun st args => match st, args with
        | [a, b], [⟨.int .w8, n⟩] => ⟨[a, b + a * (BitVec.toInt n)], [.reply (lit "total") (.int (b + a * (BitVec.toInt n)))], .nil⟩
        | _, _ => ⟨st, [], .nil⟩ },
      { name := lit "Total", params := [⟨true, .any⟩], run := fun st _ => ⟨st, [], .other⟩ },
      { name := lit "Élan", params := [⟨true, .any⟩], run := fun st _ => ⟨st, [], .none⟩ },
      { name := lit "Reset", params := [], run := fun st _ => ⟨st, [], .none⟩ }] }

theorem counter_proper (t : Bool) : Proper (counterTy t) := by
  refine ⟨by simp only [counterTy]; decide +kernel, ?_⟩
  intro m hm
  simp only [counterTy, List.mem_cons, List.not_mem_nil, or_false] at hm
  rcases hm with rfl | rfl | rfl | rfl <;> exact ⟨_, _, rfl, by decide⟩

/-- Registered with steps of ten, opened, and asked to add 3. -/
example : ∃ reg c, register (X := XT) sortedOrder (fun _ _ => (.nil, .nil)) [] (.ptr (counterTy false) [10, 0]) [10, 0] = .ok reg ∧
    runFrames reg {} [⟨lit "a", lit "counter", lit "open", none⟩, ⟨lit "a", lit "add", [], some (.digits (lit "3"))⟩] = (c, .ok) ∧
    c.out = [⟨lit "a", lit "total", [], some (.int 30)⟩, ⟨lit "a", lit "add", lit "return", none⟩] :=
  C148_session_partial (V := Int) sortedOrder _ (counterTy false) (counter_proper _) [10, 0] rfl
    (by
      intro i f v hf hv hu
      match i, hf, hv with
      | 0, hf, hv => simp [counterTy] at hf; subst hf; cases hu
      | 1, hf, hv => simp [counterTy] at hf hv; subst hf hv; rfl
      | i + 2, hf, hv => simp [counterTy] at hf)
    (by
      intro m hm
      simp only [counterTy, List.mem_cons, List.not_mem_nil, or_false] at hm
      rcases hm with rfl | rfl | rfl | rfl <;> decide +kernel)
    (lit "counter") ⟨'C', lit "ounter", rfl, by decide, rfl⟩ _ (List.mem_cons_self ..) ⟨by decide +kernel, _, _, rfl, rfl, by simp⟩ rfl _ _ rfl (lit "add") ⟨'A', lit "dd", rfl, by decide, rfl⟩
    (some (.digits (lit "3"))) (3 : BitVec 8) rfl rfl [(lit "total", .int 30)] rfl [] (lit "a") none

/-- With a total to start with, which is not exported, it can be registered but not used. -/
example : ∃ b : Builder XT Int, inspect (.ptr (counterTy false) [10, 5]) = .ok b ∧ b.fresh [10, 5] = none ∧
    ∃ b' : Builder XT Int, inspect (.ptr (counterTy true) [10, 5]) = .ok b' ∧ b'.fresh [10, 5] = some [10, 5] := ⟨_, rfl, rfl, _, rfl, rfl⟩

/-- What can be called: `Reset` takes no connection. -/
example : ((counterTy true).methods.filterMap item).map (fun e => lowered e.decl.name) = [some (lit "add"), some (lit "total"), none] := by decide +kernel

end
end Verif.Ws.Inspect

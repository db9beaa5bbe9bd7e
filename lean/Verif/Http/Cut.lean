import Verif.Ws.Cut
import Verif.Enc.BytesJson
import Verif.Http.ClientProps
/-!
# Bodies that are cut short (C177)

A response without `Content-Length` that is not chunked ends where the connection ends: `io.ReadAll` (api/json.go L32, http/client.go L36, L55) can not tell a response that is cut from a whole one. In the other
cases `net/http` says `io.ErrUnexpectedEOF`, together with what has come. Bodies are bytes here: a cut may go through a character, of which U+FFFD is left (Enc/Utf8.lean).
-/
set_option autoImplicit false
namespace Verif.Http.Short
open Verif.Strconv Verif.Enc Verif.Utf8 Verif.Prom Verif.Api Verif.Ws.Transport
variable {X : Ext} [DecidableEq X.F] [DecidableEq X.T]

/-- What `io.ReadAll` gives for a body: the bytes, and whether it fails. http/client.go L36, L55; api/json.go L32. -/
structure Came where
  bytes : List UInt8
  err : Bool

/-- `JSON.ReadFrom` (api/json.go L31-51), with `ReadAll`. -/
def readCame (a : Came) : Option (List (Str × Node X)) := if a.err then none else readFrom (runes a.bytes)

/-- `Client.API` (http/client.go L75-126) where `h` is the handler of the object (L77), and a response with code 200 has come. -/
def answered (N : NetExt) (O : Order) (fs : Fields) (h : AHandler) (obj : FVals X fs) (a : Came) : FVals X fs × Done Unit :=
  match readCame a with
  | none => (obj, .err (Errors.newErrorf () () 13 (N.sendMsg []) [.leaf 14 (N.sendMsg [])]))
  | some d =>
    let r := recvObj O fs d h.outs obj
    (r.1, match r.2 with | .ok => .ok () | .err => .err (Errors.newErrorf () () 15 (N.sendMsg []) []) | .panic => .panic)

/-! ### texts that are cut -/

/-- The bytes of a character after the first one. -/
theorem tail_bytes (c : Char) (b : UInt8) (t : Utf8.Bytes) (h : String.utf8EncodeChar c = b :: t) : ∀ x ∈ t, 0x80 ≤ x.toNat ∧ x.toNat ≤ 0xBF := by
  rw [encode_eq] at h
  have k : ∀ n, 0x80 ≤ (UInt8.ofNat (n % 0x40 + 0x80)).toNat ∧ (UInt8.ofNat (n % 0x40 + 0x80)).toNat ≤ 0xBF := fun n => by
    rw [byte_toNat _ (by omega)]; omega
  intro x hx
  split at h
  · injection h with _ h; subst h; cases hx
  · split at h
    · injection h with _ h; subst h; rcases List.mem_singleton.1 hx with rfl; exact k _
    · split at h
      · injection h with _ h; subst h
        rcases List.mem_cons.1 hx with rfl | hx
        · exact k _
        · rcases List.mem_singleton.1 hx with rfl; exact k _
      · injection h with _ h; subst h
        rcases List.mem_cons.1 hx with rfl | hx
        · exact k _
        · rcases List.mem_cons.1 hx with rfl | hx
          · exact k _
          · rcases List.mem_singleton.1 hx with rfl; exact k _

/-- Such bytes are not the beginning of a character. -/
theorem tail_none (b : UInt8) (r : Utf8.Bytes) (h : 0x80 ≤ b.toNat ∧ b.toNat ≤ 0xBF) : decodeRune b r = none := by
  unfold decodeRune
  simp only []
  rw [if_neg (by omega), if_pos (by omega)]

theorem tail_elts (r : Utf8.Bytes) (h : ∀ x ∈ r, 0x80 ≤ x.toNat ∧ x.toNat ≤ 0xBF) : ∀ c ∈ runes r, c = Char.ofNat 0xFFFD := by
  induction r with
  | nil => intro c hc; cases hc
  | cons b r ih =>
    intro c hc
    have hb := h b (by simp)
    unfold runes at hc
    rw [elts_cons, tail_none b r hb] at hc
    simp only [List.map_cons, List.mem_cons, bad, dif_pos hb.1] at hc
    rcases hc with rfl | hc
    · rfl
    · exact ih (fun x hx => h x (by simp [hx])) c hc

/-- The beginning of the bytes of a character is no character. -/
theorem cut_char (c : Char) (b x : Utf8.Bytes) (h : String.utf8EncodeChar c = b ++ x) (hx : x ≠ []) : ∀ d ∈ runes b, d = Char.ofNat 0xFFFD := by
  cases b with
  | nil => intro d hd; cases hd
  | cons b r =>
    have hn : decodeRune b r = none := by
      cases hd : decodeRune b r with
      | none => rfl
      | some p =>
        obtain ⟨c', k⟩ := p
        obtain ⟨h1, h2⟩ := encode_decode b r c' k hd
        obtain ⟨b1, t1, e1, f1⟩ := decode_encode c []
        obtain ⟨b2, t2, e2, f2⟩ := decode_encode c' (r.drop k ++ x)
        rw [h, List.cons_append] at e1
        rw [h1] at e2
        injection e1 with e1 e1'
        injection e2 with e2 e2'
        subst e1; subst e2; subst e1'; subst e2'
        rw [← List.append_assoc, List.take_append_drop] at f2
        rw [List.append_nil, f2] at f1
        injection f1 with f1
        injection f1 with _ f1
        have : 0 < x.length := List.length_pos_iff.2 hx
        simp at f1; omega
    have ht := tail_bytes c b (r ++ x) h
    intro d hd
    unfold runes at hd
    rw [elts_cons, hn] at hd
    simp only [List.map_cons, List.mem_cons, bad, dif_pos (decode_none b r hn)] at hd
    rcases hd with rfl | hd
    · rfl
    · exact tail_elts r (fun y hy => ht y (by simp [hy])) d hd

/-- Of a text of which a part of the bytes has come, a beginning is left, and U+FFFD. -/
theorem cut_text : ∀ (s : Str) (b b' : Utf8.Bytes), Utf8.utf8 s = b ++ b' → b' ≠ [] → ∃ p q f, s = p ++ q ∧ q ≠ [] ∧ runes b = p ++ f ∧ ∀ c ∈ f, c = Char.ofNat 0xFFFD
  | [], b, b', h, hb => absurd (List.append_eq_nil_iff.1 h.symm).2 hb
  | c :: s, b, b', h, hb => by
    change String.utf8EncodeChar c ++ Utf8.utf8 s = b ++ b' at h
    by_cases hx : ∃ x, String.utf8EncodeChar c = b ++ x ∧ x ≠ []
    · obtain ⟨x, hx, hne⟩ := hx
      exact ⟨[], c :: s, runes b, rfl, by simp, rfl, cut_char c b x hx hne⟩
    · have : ∃ x, b = String.utf8EncodeChar c ++ x ∧ Utf8.utf8 s = x ++ b' := by
        rcases List.append_eq_append_iff.1 h with ⟨x, h1, h2⟩ | ⟨x, h1, h2⟩
        · exact ⟨x, h1, h2⟩
        · by_cases hn : x = []
          · subst hn; exact ⟨[], by simpa using h1.symm, by simpa using h2.symm⟩
          · exact absurd ⟨x, h1, hn⟩ hx
      obtain ⟨x, rfl, h2⟩ := this
      obtain ⟨p, q, f, h3, h4, h5, h6⟩ := cut_text s x b' h2 hb
      refine ⟨c :: p, q, f, by rw [h3]; rfl, h4, ?_, h6⟩
      unfold runes at h5 ⊢
      rw [elts_rune, List.map_cons, h5]; rfl

/-! ### JSON that is cut -/

theorem digits_ascii {s : Str} (h : Digits1 s) : ∀ c ∈ s, c ≠ Char.ofNat 0xFFFD := fun c hc he => by
  subst he; exact absurd (h.2 _ hc).2 (by decide)

theorem num_ascii {t : Str} (h : JNum t) : ∀ c ∈ t, c ≠ Char.ofNat 0xFFFD := by
  obtain ⟨sg, i, f, e, rfl, h1, h2, h3, h4⟩ := h
  intro c hc
  simp only [List.mem_append] at hc
  rcases hc with hc | hc | hc | hc
  · rcases h1 with rfl | rfl
    · cases hc
    · simp at hc; subst hc; decide
  · rcases h2 with rfl | ⟨h2, _⟩
    · simp at hc; subst hc; decide
    · exact digits_ascii h2 c hc
  · rcases h3 with rfl | ⟨ds, rfl, h3⟩
    · cases hc
    · rcases List.mem_cons.1 hc with rfl | hc
      · decide
      · exact digits_ascii h3 c hc
  · rcases h4 with rfl | ⟨x, sg', ds, rfl, h5, h6, h7⟩
    · cases hc
    · rcases List.mem_cons.1 hc with rfl | hc
      · rcases h5 with rfl | rfl <;> decide
      · rcases List.mem_append.1 hc with hc | hc
        · rcases h6 with rfl | rfl | rfl
          · cases hc
          · simp at hc; subst hc; decide
          · simp at hc; subst hc; decide
        · exact digits_ascii h7 c hc

/-- No value ends with U+FFFD. -/
theorem val_last {d : Nat} {t : Str} {n : Node X} (h : JVal d t n) : t.getLast? ≠ some (Char.ofNat 0xFFFD) := by
  have k : ∀ (a b : Char) (s : Str), b ≠ Char.ofNat 0xFFFD → (a :: (s ++ [b])).getLast? ≠ some (Char.ofNat 0xFFFD) := fun a b s hb he => by
    rw [← List.cons_append, List.getLast?_concat] at he; injection he with he; exact hb he
  cases h with
  | null => decide
  | tru => decide
  | fls => decide
  | str => exact k _ _ _ (by decide)
  | num _ _ h => exact fun he => num_ascii h _ (List.mem_of_getLast? he) rfl
  | noElems => exact k _ _ _ (by decide)
  | elems => exact k _ _ _ (by decide)
  | noMembers => exact k _ _ _ (by decide)
  | members => exact k _ _ _ (by decide)

/-- No beginning of a JSON text that is not a number is JSON, even with U+FFFD after it. -/
theorem cut_json (w t p q f : Str) (n : Node X) (hw : Blank w) (ht : JVal maxDepth t n) (hn : ¬ JNum t) (hpq : w ++ t = p ++ q) (hq : q ≠ [])
    (hf : ∀ c ∈ f, c = Char.ofNat 0xFFFD) (hp : p ++ f ≠ []) : decode (X := X) (p ++ f) = none := by
  refine (C114_refused (X := X) (p ++ f)).1.2 ⟨hp, ?_⟩
  rintro m ⟨w', t', r, he, hw', ht', _⟩
  obtain ⟨c', x', hc', hcw', _⟩ := val_head ht'
  have hp' : ∃ r', p = w' ++ (t' ++ r') := by
    have he' : p ++ f = (w' ++ t') ++ r := by rw [he, List.append_assoc]
    rcases List.append_eq_append_iff.1 he' with ⟨x, h1, h2⟩ | ⟨x, h1, h2⟩
    · rcases List.eq_nil_or_concat x with rfl | ⟨x, c, rfl⟩
      · exact ⟨[], by simpa using h1.symm⟩
      · exfalso
        have hc : c = Char.ofNat 0xFFFD := hf c (by rw [h2]; simp)
        have hl : (w' ++ t').getLast? = some c := by rw [h1, List.concat_eq_append, ← List.append_assoc, List.getLast?_concat]
        rw [List.getLast?_append] at hl
        cases hlt : t'.getLast? with
        | none => rw [List.getLast?_eq_none_iff, hc'] at hlt; cases hlt
        | some c2 =>
          rw [hlt] at hl; injection hl with hl; subst hl
          exact val_last ht' (by rw [hlt, hc])
    · exact ⟨x, by rw [h1, List.append_assoc]⟩
  obtain ⟨r', rfl⟩ := hp'
  have hd := C143_prefix w t _ q n hw ht hn hpq hq (by rw [hc']; simp)
  obtain ⟨h1, _⟩ := C114_refused (X := X) (w' ++ (t' ++ r'))
  obtain ⟨c, x, hc, hcw, _⟩ := val_head ht
  obtain ⟨_, h2⟩ := blank_split w w' hw hw' t (t' ++ (r' ++ q)) ⟨c, x, hc, hcw⟩ ⟨c', x' ++ (r' ++ q), by rw [hc']; rfl, hcw'⟩ (by rw [hpq]; simp)
  have hn' : ¬ JNum t' := fun h => by
    obtain ⟨d, y, hd, hdd⟩ := JNum_head t' h
    exact hn (val_num ht d (y ++ (r' ++ q)) (by rw [h2, hd]; rfl) hdd)
  exact (h1.1 hd).2 m ⟨w', t', r', rfl, hw', ht', fun h => absurd h hn'⟩

/-- C177: no beginning of the bytes of a JSON text that is not a number, apart from the empty one, is JSON, wherever the cut is, even inside a character. -/
theorem C177_bytes (w t : Str) (b b' : Utf8.Bytes) (n : Node X) (hw : Blank w) (ht : JVal maxDepth t n) (hn : ¬ JNum t) (h : Utf8.utf8 (w ++ t) = b ++ b')
    (hb : b ≠ []) (hb' : b' ≠ []) : Wire8.decodeBytes (X := X) b = none := by
  obtain ⟨p, q, f, h1, h2, h3, h4⟩ := cut_text (w ++ t) b b' h hb'
  show decode (X := X) (runes b) = none
  rw [h3]
  refine cut_json w t p q f n hw ht hn h1 h2 h4 fun he => hb ?_
  have : runes b = [] := by rw [h3]; exact he
  have : elts b = [] := by unfold runes at this; exact List.map_eq_nil_iff.1 this
  have hbb := C176_bytes b
  rw [this] at hbb
  exact hbb.symm

/-- An object is not a number. -/
theorem map_not_num {d : Nat} {t : Str} {m : List (Str × Node X)} (h : JVal d t (.map m)) : ¬ JNum t := fun hn => by
  obtain ⟨c, r, hc, hd⟩ := JNum_head t hn
  cases h with
  | noMembers => injection hc with hc _; subst hc; exact absurd hd (by decide)
  | members => injection hc with hc _; subst hc; exact absurd hd (by decide)

/-! ### C177 -/

/-- What `Client.API` makes of a response with code 200 whose body is read without an error is `answered`. -/
theorem C177_whole (N : NetExt) (U : Str → Option Str) (O : Order) (fs : Fields) (net : Str → Http.Bytes → Option Resp) (obj : FVals X fs) (h : AHandler)
    (d : List (Str × Node X)) (s u : Str) (us : List Str) (r : Resp) (hh : newHandler (X := X) U (.ptr (.struct fs) (some obj)) = some h)
    (hd : send O fs obj h.ins [] = .ok d) (he : encode (.map d) = .ok s) (hu : h.urls = u :: us) (hr : net u (Http.utf8 s) = some r) (h200 : r.status = 200) :
    clientAPI { N with text := runes } U O fs net obj = answered N O fs h obj ⟨r.body, false⟩ := by
  unfold clientAPI answered readCame
  simp only [hh, hd, he, hu, hr]
  have hk : clientDo { N with text := runes } (some r) = .ok r := (C59_do _ r).1 (Or.inl h200)
  simp only [hk, h200, show ¬ ((200 : Int) = 204) by decide, if_false, Bool.false_eq_true]
  cases readFrom (X := X) (runes r.body) <;> rfl

/-- C177: if not all of the object that the server sends arrives, and something does, then the call fails and the object of the client is as it was, whether `net/http` notices or not. -/
theorem C177_cut_partial (N : NetExt) (O : Order) (fs : Fields) (h : AHandler) (obj : FVals X fs) (w t : Str) (m : List (Str × Node X)) (hw : Blank w) (ht : JVal maxDepth t (.map m))
    (a : Came) (rest : List UInt8) (hb : Utf8.utf8 (w ++ t) = a.bytes ++ rest) (hr : rest ≠ []) (ha : a.bytes ≠ [] ∨ a.err = true) :
    (answered N O fs h obj a).1 = obj ∧ ∃ e, (answered N O fs h obj a).2 = .err e := by
  have hc : readCame (X := X) a = none := by
    unfold readCame
    split
    · rfl
    · rename_i hne
      have hne : a.bytes ≠ [] := ha.elim id fun ha => absurd ha hne
      have := C177_bytes w t a.bytes rest _ hw ht (map_not_num ht) hb hne hr
      change decode (X := X) (runes a.bytes) = none at this
      unfold readFrom
      rw [this]
      split
      · rename_i h0; rw [h0] at this; cases this
      · rfl
  unfold answered
  rw [hc]
  exact ⟨rfl, _, rfl⟩

theorem modObj_same (g : FieldInfo → (t : Ty) → Val X t → Val X t × Status) (hg : ∀ f t v, g f t v = (v, .ok)) : ∀ (fs : Fields) (i : Nat) (v : FVals X fs), (getField fs i v).isSome → modObj g fs i v = (v, .ok)
  | .nil, _, _, h => by cases h
  | .cons f t _, 0, (v, vs), _ => by simp only [modObj, hg]
  | .cons _ _ fs, i + 1, (v, vs), h => by simp only [modObj, modObj_same g hg fs i vs h]

theorem recvObj_none (O : Order) (fs : Fields) (obj : FVals X fs) : ∀ l : List HField, (∀ a ∈ l, (getField fs a.i obj).isSome) → recvObj O fs [] l obj = (obj, .ok)
  | [], _ => rfl
  | a :: l, h => by
    unfold recvObj
    rw [modObj_same (unmarshalObj O [] a.tag.name) (fun f t v => rfl) fs a.i obj (h a (by simp))]
    exact recvObj_none O fs obj l fun b hb => h b (by simp [hb])

/-- C177 is violated: if the connection ends right after the headers, and `net/http` does not notice, the call succeeds, and the outputs are what they were, whatever the server sent. -/
theorem C177_empty_violated (N : NetExt) (U : Str → Option Str) (O : Order) (fs : Fields) (h : AHandler) (obj : FVals X fs) (hh : newHandler (X := X) U (.ptr (.struct fs) (some obj)) = some h) :
    answered N O fs h obj ⟨[], false⟩ = (obj, .ok ()) := by
  have : recvObj O fs [] h.outs obj = (obj, .ok) := by
    refine recvObj_none O fs obj h.outs fun a ha => ?_
    obtain ⟨_, _, h3, _⟩ := newHandler_lists U fs (some obj) h hh
    rw [h3] at ha
    obtain ⟨f, t, x, hx, _⟩ := listed_at U _ fs _ obj a ha
    rw [show getField fs a.i obj = _ from hx]; rfl
  unfold answered
  rw [show readCame (X := X) ⟨[], false⟩ = some [] from rfl]
  simp only [this]

/-- The same of the whole call: whatever the API is and whatever it was asked, an empty response with code 200 is a success. -/
theorem C177_call_violated (N : NetExt) (U : Str → Option Str) (O : Order) (fs : Fields) (net : Str → Http.Bytes → Option Resp) (obj : FVals X fs) (h : AHandler)
    (d : List (Str × Node X)) (s u : Str) (us : List Str) (r : Resp) (hh : newHandler (X := X) U (.ptr (.struct fs) (some obj)) = some h)
    (hd : send O fs obj h.ins [] = .ok d) (he : encode (.map d) = .ok s) (hu : h.urls = u :: us) (hr : net u (Http.utf8 s) = some r) (h200 : r.status = 200) (hb : r.body = []) :
    clientAPI { N with text := runes } U O fs net obj = (obj, .ok ()) := by
  rw [C177_whole N U O fs net obj h d s u us r hh hd he hu hr h200, hb, C177_empty_violated N U O fs h obj hh]

/-! ### concrete cases -/

/-- A response that is cut inside of a character: the text ends with U+FFFD. -/
example : runes ((Utf8.utf8 (lit "{\"Text\":\"é\"}")).take 10) = lit "{\"Text\":\"" ++ [Char.ofNat 0xFFFD] := by decide +kernel

/-- And the client says so, with its object as it was. -/
example : hiTexts (answered (X := XT) NT sortedOrder hiTy hi (Any.nil, lit "\"Bob\"", lit "before", ()) ⟨(Utf8.utf8 (lit "{\"Text\":\"é\"}")).take 10, false⟩).1 = (lit "\"Bob\"", lit "before") ∧
    (match (answered (X := XT) NT sortedOrder hiTy hi (Any.nil, lit "\"Bob\"", lit "before", ()) ⟨(Utf8.utf8 (lit "{\"Text\":\"é\"}")).take 10, false⟩).2 with | .err _ => true | _ => false) = true := by
  decide +kernel

/-- The whole response, and none of it. -/
example : hiTexts (answered (X := XT) NT sortedOrder hiTy hi (Any.nil, lit "\"Bob\"", lit "before", ()) ⟨Utf8.utf8 (lit "{\"Text\":\"é\"}"), false⟩).1 = (lit "\"Bob\"", lit "é") ∧
    hiTexts (answered (X := XT) NT sortedOrder hiTy hi (Any.nil, lit "\"Bob\"", lit "before", ()) ⟨[], false⟩).1 = (lit "\"Bob\"", lit "before") ∧
    (match (answered (X := XT) NT sortedOrder hiTy hi (Any.nil, lit "\"Bob\"", lit "before", ()) ⟨[], false⟩).2 with | .ok _ => true | _ => false) = true := by
  decide +kernel

/-- The handler `hi` is one that `NewHandler` makes, whatever the object of the client is. -/
example : newHandler (X := XT) anyUrl (.ptr (.struct hiTy) none) = some hi := by decide +kernel

end Verif.Http.Short

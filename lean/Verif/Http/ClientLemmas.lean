import Verif.Http.Props
import Verif.Api.CallProps
/-!
# Lemmas about the http client
-/
set_option autoImplicit false
namespace Verif.Http
open Verif.Strconv Verif.Enc Verif.Api

variable {X : Ext} [DecidableEq X.F] [DecidableEq X.T]

/-- Two handlers that differ in what is copied from the template only. -/
def SameLists (h h' : AHandler) : Prop := h.auth = h'.auth ∧ h.ins = h'.ins ∧ h.outs = h'.outs ∧ h.urls = h'.urls

theorem scan_any (U : Str → Option Str) : ∀ (fs : Fields) (v w : FVals X fs) (i : Nat) (h h' k : AHandler), SameLists h h' → scan U fs v i h = some k →
    ∃ k', scan U fs w i h' = some k' ∧ SameLists k k'
  | .nil, _, _, _, _, h', k, hl, hs => by
    injection hs with hs; subst hs
    exact ⟨h', rfl, hl⟩
  | .cons f t fs, (v, vs), (w, ws), i, h, h', k, hl, hs => by
    simp only [scan] at hs ⊢
    cases ht : parseTags U f with
    | none => rw [ht] at hs; cases hs
    | some tag =>
      rw [ht] at hs
      simp only [Option.bind_some] at hs ⊢
      obtain ⟨l1, l2, l3, l4⟩ := hl
      unfold addField at hs ⊢
      by_cases ha : (tag.auth && h.auth.isSome) = true
      · rw [if_pos ha] at hs; cases hs
      · rw [if_neg ha] at hs
        have ha' : ¬ (tag.auth && h'.auth.isSome) = true := by rw [← l1]; exact ha
        rw [if_neg ha']
        simp only [Option.bind_some] at hs ⊢
        exact scan_any U fs vs ws (i + 1) _ _ k ⟨by simp only [l1], by simp only [l2], by simp only [l3], by simp only [l4]⟩ hs

/-- Whether a handler can be built, and its lists, do not depend on the template. -/
theorem newHandler_any (U : Str → Option Str) (fs : Fields) (tmpl tmpl' : Option (Val X (.struct fs))) (h : AHandler) (hh : newHandler U (.ptr (.struct fs) tmpl) = some h) :
    ∃ h', newHandler U (.ptr (.struct fs) tmpl') = some h' ∧ SameLists h h' :=
  scan_any U fs (content fs tmpl) (content fs tmpl') 0 {} {} h ⟨rfl, rfl, rfl, rfl⟩ hh

/-- The status of a call as its result. -/
def statusRes {α : Type} (p : α × Status) : Res α :=
  match p.2 with
  | .ok => .ok p.1
  | .err => .err
  | .panic => .panic

theorem modObj_res (g : FieldInfo → (t : Ty) → Val X t → Val X t × Status) (g' : FieldInfo → (t : Ty) → Val X t → Res (Val X t))
    (hg : ∀ f t v, g' f t v = statusRes (g f t v)) : ∀ (fs : Fields) (i : Nat) (v : FVals X fs), modField g' fs i v = statusRes (modObj g fs i v)
  | .nil, _, _ => rfl
  | .cons f t _, 0, (v, vs) => by
    simp only [modField, modObj, hg]
    cases h : g f t v with
    | mk a s => cases s <;> rfl
  | .cons _ _ fs, i + 1, (v, vs) => by
    simp only [modField, modObj, modObj_res g g' hg fs i vs]
    cases h : modObj g fs i vs with
    | mk a s => cases s <;> rfl

theorem unmarshalObj_res (O : Order) (data : List (Str × Node X)) (name : Str) (f : FieldInfo) (t : Ty) (v : Val X t) :
    unmarshalField O data name f t v = statusRes (unmarshalObj O data name f t v) := by
  unfold unmarshalField unmarshalObj
  cases lookupKey name data with
  | none => rfl
  | some n =>
    by_cases he : f.exported = true
    · simp only [he, if_true]; rfl
    · simp only [he]; rfl

/-- Keeping track of the object changes nothing else. -/
theorem recvObj_res (O : Order) (fs : Fields) (data : List (Str × Node X)) : ∀ (l : List HField) (v : FVals X fs),
    clientRecv O fs data l v = statusRes (recvObj O fs data l v)
  | [], _ => rfl
  | f :: l, v => by
    simp only [clientRecv, recvObj, modObj_res _ _ (unmarshalObj_res O data f.tag.name) fs f.i v]
    cases h : modObj (unmarshalObj O data f.tag.name) fs f.i v with
    | mk a s =>
      cases s with
      | ok => exact recvObj_res O fs data l a
      | err => rfl
      | panic => rfl

theorem recvObj_ok {O : Order} {fs : Fields} {data : List (Str × Node X)} {l : List HField} {v w : FVals X fs} (h : clientRecv O fs data l v = .ok w) :
    recvObj O fs data l v = (w, .ok) := by
  rw [recvObj_res] at h
  cases hr : recvObj O fs data l v with
  | mk a s =>
    rw [hr] at h
    cases s with
    | ok => injection h with h; subst h; rfl
    | err => cases h
    | panic => cases h

theorem bind_ok' {α β : Type} {r : Res α} {f : α → Res β} {b : β} (h : r.bind f = .ok b) : ∃ a, r = .ok a ∧ f a = .ok b := by
  cases r with
  | ok a => exact ⟨a, rfl, h⟩
  | err => cases h
  | panic => cases h

theorem overJson_ok {d d' : List (Str × Node X)} (h : overJson d = .ok d') : ∃ s, encode (.map d) = .ok s ∧ readFrom s = some d' := by
  unfold overJson at h
  cases he : encode (.map d) with
  | error _ => rw [he] at h; cases h
  | ok s =>
    rw [he] at h
    refine ⟨s, rfl, ?_⟩
    cases hr : readFrom (X := X) s with
    | none => simp only [hr] at h; cases h
    | some m => simp only [hr] at h; injection h with h; rw [h]

/-- The text of an object is not empty. -/
theorem encode_map_ne {d : List (Str × Node X)} {s : Str} (h : encode (.map d) = .ok s) : utf8 s ≠ [] := by
  unfold encode at h
  split at h
  · injection h with h
    rw [← h]
    simp [Node.text, utf8, String.utf8EncodeChar]
  · cases h

end Verif.Http

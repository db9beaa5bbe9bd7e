import Verif.Http.ClientProps
import Verif.Lists.Heap
/-!
# The response of a `Call` (/repo/http/call.go) (C142)

A handler fills the response with `Write` and `SetBody`. `Call.res` is a `bytes.Buffer`: `SetBody` makes it use the array of the slice it is given, `Write` appends to it, in place while there is room. Arrays and
slices are those of `Lists/Heap`; an array the buffer made itself is seen by nobody else, so of it only the content matters.
-/
set_option autoImplicit false
namespace Verif.Http.CallBody
open Verif.Lists.Heap

variable {α : Type}

/-- `Call.res` (http/call.go L70): its own array, or that of a slice it was given. -/
inductive Buf (α : Type) where
  | own (l : List α)
  | lent (s : Slice)

/-- What a handler does to its slices and its call (http/call.go L73-79): `store` changes a cell of one of its arrays, `alloc` makes an array. -/
inductive Op (α : Type) where
  | write (s : Slice)
  | setBody (s : Slice)
  | store (arr i : Nat) (v : α)
  | alloc (l : List α)

/-- `Bytes()`. http/call.go L46. -/
def Buf.bytes (h : Heap α) : Buf α → List α
  | .own l => l
  | .lent s => read h s

/-- A cell is assigned. http/call.go L73-79 (by the handler). -/
def put (h : Heap α) (arr i : Nat) (v : α) : Heap α := h.set arr ((h.getD arr []).set i v)

/-- One operation. `bytes.Buffer.Write` grows within the capacity of the array if it can, else it moves to another one. http/call.go L73-79. -/
def step (st : Heap α × Buf α) : Op α → Heap α × Buf α
  | .write s =>
    match st.2 with
    | .own l => (st.1, .own (l ++ read st.1 s))
    | .lent b =>
      if b.len + (read st.1 s).length ≤ b.cap then
        (st.1.set b.arr (overlay (st.1.getD b.arr []) (b.off + b.len) (read st.1 s)), .lent { b with len := b.len + (read st.1 s).length })
      else (st.1, .own (read st.1 b ++ read st.1 s))
  | .setBody s => (st.1, .lent s)
  | .store a i v => (put st.1 a i v, st.2)
  | .alloc l => (st.1 ++ [l], st.2)

/-- A handler. http/call.go L45, L73-79. -/
def run (h : Heap α) (ops : List (Op α)) : Heap α × Buf α := ops.foldl step (h, .own [])

/-- What is sent: http/call.go L46. -/
def response (h : Heap α) (ops : List (Op α)) : List α := (run h ops).2.bytes (run h ops).1

/-! ### What a handler may expect: the response is a value, and its arrays are its own -/

/-- One operation on the arrays of the handler and the text of the response. -/
def idealStep (st : Heap α × List α) : Op α → Heap α × List α
  | .write s => (st.1, st.2 ++ read st.1 s)
  | .setBody s => (st.1, read st.1 s)
  | .store a i v => (put st.1 a i v, st.2)
  | .alloc l => (st.1 ++ [l], st.2)

/-- The arrays and the response after a handler. -/
def ideal (h : Heap α) (ops : List (Op α)) : Heap α × List α := ops.foldl idealStep (h, [])

/-- Slices are given away with no room behind them, and the arrays given away are not changed afterwards; `given` is the one in use. -/
def Polite : Option Nat → List (Op α) → Prop
  | _, [] => True
  | g, .write _ :: l => Polite g l
  | _, .setBody s :: l => s.cap = s.len ∧ Polite (some s.arr) l
  | g, .store a _ _ :: l => g ≠ some a ∧ Polite g l
  | g, .alloc _ :: l => Polite g l

/-! ### C142 -/

theorem read_congr (h h' : Heap α) (s : Slice) (e : h.getD s.arr [] = h'.getD s.arr []) : read h s = read h' s := by unfold Lists.Heap.read; rw [e]

theorem overlay_nil (l : List α) (p : Nat) : overlay l p [] = l := by simp [overlay]

theorem set_same (h : Heap α) (i : Nat) : h.set i (h.getD i []) = h := by
  apply List.ext_getElem?
  intro j
  rw [List.getElem?_set]
  split
  · rename_i hij; subst hij
    split
    · rename_i hl; simp [List.getD_eq_getElem?_getD, List.getElem?_eq_getElem hl]
    · rename_i hl; rw [List.getElem?_eq_none (by omega)]
  · rfl

theorem read_length_le (h : Heap α) (s : Slice) : (read h s).length ≤ s.len := by unfold Lists.Heap.read; simp; omega

theorem polite_run (ops : List (Op α)) : ∀ (h : Heap α) (b : Buf α) (g : Option Nat), Polite g ops →
    (∀ s, b = .lent s → g = some s.arr ∧ s.cap = s.len ∧ s.arr < h.length) → (∀ s, Op.setBody s ∈ ops → s.arr < h.length) →
    (ops.foldl step (h, b)).1 = (ops.foldl idealStep (h, b.bytes h)).1 ∧
    (ops.foldl step (h, b)).2.bytes (ops.foldl step (h, b)).1 = (ops.foldl idealStep (h, b.bytes h)).2 := by
  induction ops with
  | nil => intro h b g _ _ _; exact ⟨rfl, rfl⟩
  | cons o ops ih =>
    intro h b g hp hb hs
    simp only [List.foldl_cons]
    cases o with
    | write s =>
      cases b with
      | own l => exact ih h (.own (l ++ read h s)) g hp (fun _ h => nomatch h) (fun s hs' => hs s (List.mem_cons_of_mem _ hs'))
      | lent b =>
        obtain ⟨hg, hc, hl⟩ := hb b rfl
        simp only [step, idealStep, Buf.bytes]
        split
        · rename_i hfit
          have h0 : read h s = [] := List.length_eq_zero_iff.1 (by omega)
          rw [h0, overlay_nil, set_same, List.append_nil]
          exact ih h (.lent b) g hp hb (fun s hs' => hs s (List.mem_cons_of_mem _ hs'))
        · exact ih h (.own (read h b ++ read h s)) g hp (fun _ h => nomatch h) (fun s hs' => hs s (List.mem_cons_of_mem _ hs'))
    | setBody s =>
      exact ih h (.lent s) (some s.arr) hp.2 (fun s' h' => by cases h'; exact ⟨rfl, hp.1, hs s List.mem_cons_self⟩) (fun s hs' => hs s (List.mem_cons_of_mem _ hs'))
    | store a i v =>
      have hbytes : b.bytes (put h a i v) = b.bytes h := by
        cases b with
        | own l => rfl
        | lent b =>
          refine read_congr _ _ _ ?_
          have : a ≠ b.arr := fun e => hp.1 (by rw [(hb b rfl).1, e])
          unfold put
          simp [List.getD_eq_getElem?_getD, List.getElem?_set_ne this]
      have := ih (put h a i v) b g hp.2 (fun s h' => by rw [put, List.length_set]; exact hb s h')
        (fun s hs' => by rw [put, List.length_set]; exact hs s (List.mem_cons_of_mem _ hs'))
      rw [hbytes] at this
      exact this
    | alloc l =>
      have hbytes : b.bytes (h ++ [l]) = b.bytes h := by
        cases b with
        | own l => rfl
        | lent b =>
          refine read_congr _ _ _ ?_
          simp [List.getD_eq_getElem?_getD, List.getElem?_append_left (hb b rfl).2.2]
      have := ih (h ++ [l]) b g hp (fun s h' => by obtain ⟨h1, h2, h3⟩ := hb s h'; exact ⟨h1, h2, by simp; omega⟩)
        (fun s hs' => by have := hs s (List.mem_cons_of_mem _ hs'); simp; omega)
      rw [hbytes] at this
      exact this

/-- C142, for handlers that give slices away without room behind them and do not touch them afterwards: the response is what was written since the last `SetBody`, and the arrays of the handler are changed by
nobody else. -/
theorem C142_body_partial (h : Heap α) (ops : List (Op α)) (hp : Polite none ops) (hs : ∀ s, Op.setBody s ∈ ops → s.arr < h.length) :
    response h ops = (ideal h ops).2 ∧ (run h ops).1 = (ideal h ops).1 := by
  have := polite_run ops h (.own []) none hp (fun _ h => nomatch h) hs
  exact ⟨this.2, this.1⟩

/-- C142: `Write` alone takes copies: whatever the handler does to its arrays in between, the response is all that was written, in order. -/
theorem C142_write (h : Heap α) (ops : List (Op α)) (hw : ∀ s, Op.setBody s ∉ ops) : response h ops = (ideal h ops).2 ∧ (run h ops).1 = (ideal h ops).1 := by
  have key : ∀ (ops : List (Op α)), (∀ s, Op.setBody s ∉ ops) → ∀ (h : Heap α) (l : List α),
      (ops.foldl step (h, .own l)).1 = (ops.foldl idealStep (h, l)).1 ∧ (ops.foldl step (h, .own l)).2 = .own (ops.foldl idealStep (h, l)).2 := by
    intro ops
    induction ops with
    | nil => intro _ h l; exact ⟨rfl, rfl⟩
    | cons o ops ih =>
      intro hw h l
      have hw' : ∀ s, Op.setBody s ∉ ops := fun s hs => hw s (List.mem_cons_of_mem _ hs)
      simp only [List.foldl_cons]
      cases o with
      | write s => exact ih hw' _ _
      | setBody s => exact absurd List.mem_cons_self (hw s)
      | store a i v => exact ih hw' _ _
      | alloc m => exact ih hw' _ _
  have := key ops hw h []
  refine ⟨?_, this.1⟩
  unfold response run ideal
  rw [this.2]; rfl

/-- C142, violated: a `Write` after `SetBody` writes into the array of the handler, behind the slice that was given away: a slice of the handler that begins there is overwritten. For every slice with room. -/
theorem C142_overwrite_violated (h : Heap α) (s w next : Slice) (hlen : s.off + s.len + (read h w).length ≤ (h.getD s.arr []).length) (hcap : s.len + (read h w).length ≤ s.cap)
    (hn : next.arr = s.arr ∧ next.off = s.off + s.len ∧ next.len = (read h w).length) (hne : read h w ≠ read h next) :
    read (run h [.setBody s, .write w]).1 next = read h w ∧ (run h [.setBody s, .write w]).1 ≠ (ideal h [.setBody s, .write w]).1 := by
  have harr : s.arr < h.length := by
    by_cases ha : s.arr < h.length
    · exact ha
    · have he : h.getD s.arr [] = [] := by simp [List.getD_eq_getElem?_getD, List.getElem?_eq_none (Nat.le_of_not_lt ha)]
      have h0 : read h w = [] := List.length_eq_zero_iff.1 (by rw [he, List.length_nil] at hlen; omega)
      refine absurd ?_ hne
      rw [h0]; unfold Lists.Heap.read; rw [hn.1, he]; simp
  have e1 : (run h [.setBody s, .write w]).1 = h.set s.arr (overlay (h.getD s.arr []) (s.off + s.len) (read h w)) := by
    simp [run, step, hcap]
  have e2 : read (run h [.setBody s, .write w]).1 next = read h w := by
    rw [e1]
    have : read (h.set s.arr (overlay (h.getD s.arr []) (s.off + s.len) (read h w))) next
        = ((overlay (h.getD s.arr []) (s.off + s.len) (read h w)).drop (s.off + s.len)).take (read h w).length := by
      show ((List.getD _ next.arr []).drop next.off).take next.len = _
      rw [hn.1, hn.2.1, hn.2.2]
      simp [List.getD_eq_getElem?_getD, List.getElem?_set_self harr]
    rw [this]
    unfold overlay
    have hl : ((h.getD s.arr []).take (s.off + s.len)).length = s.off + s.len := by rw [List.length_take]; omega
    rw [List.append_assoc, List.drop_append_of_le_length (by omega), List.drop_of_length_le (by omega), List.nil_append, List.take_append_of_le_length (by omega), List.take_length]
  refine ⟨e2, fun he => hne ?_⟩
  rw [he] at e2
  exact e2.symm

/-- C142, violated: what the handler does to a slice after `SetBody` changes the response. For every cell of the slice. -/
theorem C142_alias_violated (h : Heap α) (s : Slice) (i : Nat) (v : α) (harr : s.arr < h.length) (hi : i < s.len) (hl : s.off + s.len ≤ (h.getD s.arr []).length) :
    (response h [.setBody s, .store s.arr (s.off + i) v])[i]? = some v ∧ (ideal h [.setBody s, .store s.arr (s.off + i) v]).2 = read h s := by
  refine ⟨?_, rfl⟩
  have : response h [.setBody s, .store s.arr (s.off + i) v] = read (put h s.arr (s.off + i) v) s := rfl
  rw [this]
  unfold Lists.Heap.read put
  simp only [List.getD_eq_getElem?_getD, List.getElem?_set_self harr, Option.getD_some]
  rw [List.getElem?_take_of_lt hi, List.getElem?_drop, List.getElem?_set_self]
  rw [List.getD_eq_getElem?_getD] at hl
  omega

/-! ### The handler as a whole -/

/-- `CallHandler` (http/call.go L13-18), times in nanoseconds. -/
structure Cfg where
  maxLength : Int
  readTimeout : Int

/-- `readTimeout` (http/call.go L20-25). -/
def Cfg.timeout (c : Cfg) : Int := if c.readTimeout > 0 then c.readTimeout else 30 * 1000000000

/-- The calls on the writer (http/call.go L28-60): `body` is what reading gave, if there is a body, within the time allowed; the handler is given the call, of which nothing of the request can be seen from
outside the package, and makes the response. -/
def serve (_ : Cfg) (N : NetExt) (body : Option (Option Bytes)) (handler : Done Bytes) : Option (List Http.Op) :=
  match body with
  | some none => callOps (.err (Errors.httpNewErrorf () () 400 1 (N.readMsg []) []))
  | _ => callOps handler

/-- C142: the time allowed for reading is what was configured, 30 seconds if that is nothing, and always positive. -/
theorem C142_timeout (c : Cfg) : 0 < c.timeout ∧ (0 < c.readTimeout → c.timeout = c.readTimeout) ∧ (c.readTimeout ≤ 0 → c.timeout = 30000000000) := by
  unfold Cfg.timeout
  refine ⟨?_, ?_, ?_⟩ <;> intros <;> split <;> omega

/-- C142: a body that can not be read is answered by 400 and the handler does not matter; else the answer is the one of the handler. -/
theorem C142_serve (c : Cfg) (N : NetExt) (r : Done Bytes) (b : Option Bytes) :
    serve c N (some none) r = some [.header 400] ∧ serve c N (b.map some) r = callOps r := by
  constructor
  · simp [serve, callOps, Errors.errorCode, Errors.httpNewErrorf, Errors.Err.asHttp]
  · cases b <;> rfl

/-- C142, violated: `MaxLength`, whose comment promises a default of a megabyte, is not looked at: no body is too long. -/
theorem C142_length_violated (c c' : Cfg) (N : NetExt) (b : Bytes) (r : Done Bytes) : serve c N (some (some b)) r = callOps r ∧ serve c' N (some (some b)) r = callOps r := ⟨rfl, rfl⟩

/-! ### examples -/

/-- One array of six, of which the first three are given away and the last three are kept. -/
example : read (run [[1, 2, 3, 4, 5, 6], [7, 8]] [.setBody { arr := 0, off := 0, len := 3, cap := 6 }, .write { arr := 1, off := 0, len := 2, cap := 2 }]).1 { arr := 0, off := 3, len := 3, cap := 3 }
    = [7, 8, 6] := by decide
example : response [[1, 2, 3], [7, 8]] [.setBody { arr := 0, off := 0, len := 3, cap := 3 }, .write { arr := 1, off := 0, len := 2, cap := 2 }, .alloc [9], .write { arr := 2, off := 0, len := 1, cap := 1 },
    .store 1 0 0] = [1, 2, 3, 7, 8, 9] := by decide
example : response [[1, 2, 3]] [.write { arr := 0, off := 0, len := 3, cap := 3 }, .setBody { arr := 0, off := 1, len := 2, cap := 2 }, .store 0 1 5] = [5, 3] := by decide

end Verif.Http.CallBody

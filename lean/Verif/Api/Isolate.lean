import Verif.Base
/-!
# Requests to one API (api/handler.go L36-87, L225-253)

`NewHandler` keeps the fields of the template that are neither input, output nor url, and `Server.Recv` sets these fields of a new object to what they are in the template. That copies numbers,
but of a pointer, map or slice only the reference. Here memory is explicit. A handler is any program on its object, which goes on according to what it has seen; requests are handled at the
same time, their steps in any order. One memory cell stands for whatever a reference leads to.
-/
set_option autoImplicit false
namespace Verif.Api.Isolate

/-- A cell: made before by whoever made the template, or made for request `i`. api/handler.go L36. -/
inductive Ref where
  | tmpl (k : Nat)
  | own (i k : Nat)
deriving DecidableEq

/-- What a field or a cell holds. -/
inductive Val where
  | num (n : Nat)
  | ref (r : Ref)
deriving DecidableEq

/-- What a handler does next with its object: set a field, copy a field, make a new cell, read or write the cell a field leads to. -/
inductive Cmd where
  | set (j n : Nat)
  | copy (j k : Nat)
  | new (j k : Nat)
  | load (j k : Nat)
  | store (j k : Nat)
deriving DecidableEq

/-- A handler: its next statement, given what it has seen so far. Any deterministic `Do`. -/
abbrev Prog := List Nat → Option Cmd

/-- How a field is tagged: input, or kept from the template; outputs and urls are neither. api/handler.go L69-86. -/
inductive Kind where
  | input | kept | other
deriving DecidableEq

/-- The template: its fields, and the memory they lead to. api/handler.go L36-52. -/
structure Template where
  kind : Nat → Kind
  val : Nat → Val
  mem : Nat → Val

/-- What a request has for an input field: a number, or something in memory, which is made for the request. api/handler.go L234-243, api/json.go. -/
structure Input where
  arg : Nat → Nat ⊕ Nat
  cells : List Nat

/-- A request under way: its handler, what it has seen, its object, and how many cells were made for it. -/
structure Local where
  prog : Prog
  seen : List Nat
  obj : Nat → Val
  next : Nat

/-- Memory. -/
abbrev Mem := Ref → Val

/-- Writing a cell. -/
def Mem.put (M : Mem) (r : Ref) (v : Val) : Mem := fun r' => if r' = r then v else M r'

/-- Setting a field. -/
def Local.put (L : Local) (j : Nat) (v : Val) (o : Nat) : Local := { L with obj := fun k => if k = j then v else L.obj k, seen := L.seen ++ [o] }

/-- What a handler sees of a value: references can not be told apart. -/
def Val.shown : Val → Nat
  | .num n => n
  | .ref _ => 0

/-- Before any request. -/
def Template.start (T : Template) : Mem
  | .tmpl k => T.mem k
  | .own _ _ => .num 0

/-- `Recv`: a new object whose kept fields are those of the template. api/handler.go L225-243. -/
def recv (T : Template) (i : Nat) (P : Prog) (a : Input) : Local where
  prog := P
  seen := []
  obj := fun j => match T.kind j with
    | .kept => T.val j
    | .input => match a.arg j with
      | .inl n => .num n
      | .inr k => .ref (.own i k)
    | .other => .num 0
  next := a.cells.length

/-- The memory made for the inputs. api/handler.go L234-238. -/
def load (M : Mem) (i : Nat) (a : Input) : Mem := fun
  | .own i' k => if i' = i then .num (a.cells.getD k 0) else M (.own i' k)
  | .tmpl k => M (.tmpl k)

/-- One statement of the handler of request `i`. Following a field that is no reference ends it (a panic). -/
def step (i : Nat) (M : Mem) (L : Local) : Mem × Local :=
  match L.prog L.seen with
  | none => (M, L)
  | some (.set j n) => (M, L.put j (.num n) 0)
  | some (.copy j k) => (M, L.put j (L.obj k) (L.obj k).shown)
  | some (.new j k) => (M.put (.own i L.next) (L.obj k), { L.put j (.ref (.own i L.next)) 0 with next := L.next + 1 })
  | some (.load j k) => match L.obj k with
    | .ref r => (M, L.put j (M r) (M r).shown)
    | .num _ => (M, { L with prog := fun _ => none })
  | some (.store j k) => match L.obj j with
    | .ref r => (M.put r (L.obj k), { L with seen := L.seen ++ [0] })
    | .num _ => (M, { L with prog := fun _ => none })

/-- What can happen: a request arrives, or a request goes on. -/
inductive Act where
  | recv (P : Prog) (a : Input)
  | go (i : Nat)

/-- Memory, and the requests in the order they came. -/
structure St where
  mem : Mem
  reqs : List Local

/-- One thing happens. api/handler.go L225-243; `Do` is called by whoever called `Recv` (http/api.go L52-62). -/
def act (T : Template) (s : St) : Act → St
  | .recv P a => ⟨load s.mem s.reqs.length a, s.reqs ++ [recv T s.reqs.length P a]⟩
  | .go i => match s.reqs[i]? with
    | some L => ⟨(step i s.mem L).1, s.reqs.set i (step i s.mem L).2⟩
    | none => s

/-- Several things happen. -/
def run (T : Template) : St → List Act → St
  | s, [] => s
  | s, a :: l => run T (act T s a) l

/-- A request alone: after `n` of its steps. -/
def alone (T : Template) (i : Nat) (P : Prog) (a : Input) : Nat → Mem × Local
  | 0 => (load T.start i a, recv T i P a)
  | n + 1 => step i (alone T i P a n).1 (alone T i P a n).2

/-- A handler that does not write what the template leads to, when it is alone. -/
def Tame (T : Template) (i : Nat) (P : Prog) (a : Input) : Prop :=
  ∀ n j k, (alone T i P a n).2.prog (alone T i P a n).2.seen = some (.store j k) → ∀ c, (alone T i P a n).2.obj j ≠ .ref (.tmpl c)

/-- A template in which no kept field is a reference. -/
def Flat (T : Template) : Prop := ∀ j, T.kind j = .kept → ∃ n, T.val j = .num n

/-- What the template leads to was there before. -/
def Closed (T : Template) : Prop := (∀ j i k, T.val j ≠ .ref (.own i k)) ∧ ∀ c i k, T.mem c ≠ .ref (.own i k)

/-! ### a request keeps to itself -/

/-- A value that leads to the template's memory, or to that of request `i`. -/
def Near (i : Nat) (v : Val) : Prop := ∀ i' k, v = .ref (.own i' k) → i' = i

/-- What request `i` can reach. -/
structure Keeps (i : Nat) (M : Mem) (L : Local) : Prop where
  obj : ∀ j, Near i (L.obj j)
  own : ∀ k, Near i (M (.own i k))
  tmpl : ∀ k, Near i (M (.tmpl k))

theorem near_num (i n : Nat) : Near i (.num n) := by intro i' k h; cases h

theorem near_own (i k : Nat) : Near i (.ref (.own i k)) := by intro i' k' h; cases h; rfl

theorem keeps_put {i : Nat} {M : Mem} {L : Local} (h : Keeps i M L) (j : Nat) (v : Val) (o : Nat) (hv : Near i v) : Keeps i M (L.put j v o) := by
  refine ⟨fun k => ?_, h.own, h.tmpl⟩
  simp only [Local.put]
  split
  · exact hv
  · exact h.obj k

theorem keeps_mem {i : Nat} {M : Mem} {L : Local} (h : Keeps i M L) (r : Ref) (v : Val) (hv : Near i v) : Keeps i (M.put r v) L := by
  refine ⟨h.obj, fun k => ?_, fun k => ?_⟩ <;> simp only [Mem.put] <;> split
  · exact hv
  · exact h.own k
  · exact hv
  · exact h.tmpl k

theorem keeps_reach {i : Nat} {M : Mem} {L : Local} (h : Keeps i M L) (k : Nat) (r : Ref) (hr : L.obj k = .ref r) : Near i (M r) := by
  cases r with
  | tmpl c => exact h.tmpl c
  | own i' c => have := h.obj k i' c hr; subst this; exact h.own c

theorem keeps_step {i : Nat} {M : Mem} {L : Local} (h : Keeps i M L) : Keeps i (step i M L).1 (step i M L).2 := by
  unfold step
  split
  · exact h
  · exact keeps_put h _ _ _ (near_num _ _)
  · exact keeps_put h _ _ _ (h.obj _)
  · rename_i j k _
    have := keeps_put (keeps_mem h (.own i L.next) (L.obj k) (h.obj k)) j _ 0 (near_own i L.next)
    exact ⟨this.obj, this.own, this.tmpl⟩
  · split
    · rename_i hr; exact keeps_put h _ _ _ (keeps_reach h _ _ hr)
    · exact ⟨h.obj, h.own, h.tmpl⟩
  · split
    · rename_i j k _ _ r _
      have := keeps_mem h r (L.obj k) (h.obj k)
      exact ⟨this.obj, this.own, this.tmpl⟩
    · exact ⟨h.obj, h.own, h.tmpl⟩

theorem keeps_alone (T : Template) (hT : Closed T) (i : Nat) (P : Prog) (a : Input) (n : Nat) : Keeps i (alone T i P a n).1 (alone T i P a n).2 := by
  induction n with
  | zero =>
    refine ⟨fun j => ?_, fun k => ?_, fun k => ?_⟩
    · simp only [alone, recv]
      split
      · intro i' k h; exact absurd h (hT.1 j i' k)
      · split
        · exact near_num _ _
        · exact near_own _ _
      · exact near_num _ _
    · simp only [alone, load, if_true]; exact near_num _ _
    · simp only [alone, load, Template.start]; intro i' c h; exact absurd h (hT.2 k i' c)
  | succ n ih => exact keeps_step ih

/-- Two memories that are the same for request `i`. -/
def Same (i : Nat) (M M' : Mem) : Prop := (∀ k, M (.tmpl k) = M' (.tmpl k)) ∧ ∀ k, M (.own i k) = M' (.own i k)

theorem same_reach {i : Nat} {M M' : Mem} {L : Local} (hs : Same i M M') (h : Keeps i M L) (k : Nat) (r : Ref) (hr : L.obj k = .ref r) : M r = M' r := by
  cases r with
  | tmpl c => exact hs.1 c
  | own i' c => have := h.obj k i' c hr; subst this; exact hs.2 c

/-- A step of request `i` depends on, and changes, only what it can reach. -/
theorem step_same {i : Nat} {M M' : Mem} {L : Local} (hs : Same i M M') (h : Keeps i M L) : (step i M L).2 = (step i M' L).2 ∧ Same i (step i M L).1 (step i M' L).1 := by
  have put : ∀ r v, Same i (M.put r v) (M'.put r v) := by
    intro r v
    constructor <;> intro k <;> simp only [Mem.put] <;> split
    · rfl
    · exact hs.1 k
    · rfl
    · exact hs.2 k
  unfold step
  split
  · exact ⟨rfl, hs⟩
  · exact ⟨rfl, hs⟩
  · exact ⟨rfl, hs⟩
  · exact ⟨rfl, put _ _⟩
  · split
    · rename_i hr; rw [same_reach hs h _ _ hr]; exact ⟨rfl, hs⟩
    · exact ⟨rfl, hs⟩
  · split
    · exact ⟨rfl, put _ _⟩
    · exact ⟨rfl, hs⟩

/-- A step of request `i` leaves what others own, and the template if it does not write there. -/
theorem step_others {i : Nat} {M : Mem} {L : Local} (h : Keeps i M L) : (∀ i' k, i' ≠ i → (step i M L).1 (.own i' k) = M (.own i' k)) ∧
    ((∀ j k, L.prog L.seen = some (.store j k) → ∀ c, L.obj j ≠ .ref (.tmpl c)) → ∀ k, (step i M L).1 (.tmpl k) = M (.tmpl k)) := by
  unfold step
  split
  · exact ⟨fun _ _ _ => rfl, fun _ _ => rfl⟩
  · exact ⟨fun _ _ _ => rfl, fun _ _ => rfl⟩
  · exact ⟨fun _ _ _ => rfl, fun _ _ => rfl⟩
  · refine ⟨fun i' k hi => ?_, fun _ k => ?_⟩
    · simp only [Mem.put]; rw [if_neg]; intro e; cases e; exact hi rfl
    · simp [Mem.put]
  · split <;> exact ⟨fun _ _ _ => rfl, fun _ _ => rfl⟩
  · rename_i j k hc
    split
    · rename_i r hr
      refine ⟨fun i' k hi => ?_, fun ht k => ?_⟩
      · simp only [Mem.put]; rw [if_neg]; intro e; subst e; exact hi (h.obj j i' k hr)
      · simp only [Mem.put]; rw [if_neg]; intro e; subst e; exact ht j _ hc k hr
    · exact ⟨fun _ _ _ => rfl, fun _ _ => rfl⟩

/-! ### together -/

/-- The requests of a run: handler, input and how often each went on. -/
abbrev Track := List (Prog × Input × Nat)

/-- One more thing happens. -/
def Track.act (h : Track) : Act → Track
  | .recv P a => h ++ [(P, a, 0)]
  | .go i => h.modify i fun x => (x.1, x.2.1, x.2.2 + 1)

/-- Every request is as if alone. -/
structure Inv (T : Template) (s : St) (h : Track) : Prop where
  len : s.reqs.length = h.length
  tmpl : ∀ k, s.mem (.tmpl k) = T.mem k
  req : ∀ (i : Nat) (P : Prog) (a : Input) (n : Nat), h[i]? = some (P, a, n) → s.reqs[i]? = some (alone T i P a n).2 ∧ ∀ k, s.mem (.own i k) = (alone T i P a n).1 (.own i k)

/-- All requests are tame. -/
def AllTame (T : Template) (l : List Act) : Prop := ∀ P a, Act.recv P a ∈ l → ∀ i, Tame T i P a

theorem alone_tmpl (T : Template) (hT : Closed T) (i : Nat) (P : Prog) (a : Input) (ht : Tame T i P a) (n k : Nat) : (alone T i P a n).1 (.tmpl k) = T.mem k := by
  induction n with
  | zero => rfl
  | succ n ih =>
    rw [alone, (step_others (keeps_alone T hT i P a n)).2 (fun j k h => ht n j k h), ih]

theorem inv_act (T : Template) (hT : Closed T) (s : St) (h : Track) (x : Act) (hi : Inv T s h) (ht : ∀ (i : Nat) P a n, h[i]? = some (P, a, n) → Tame T i P a) :
    Inv T (act T s x) (h.act x) := by
  cases x with
  | recv P a =>
    refine ⟨by simp [act, Track.act, hi.len], fun k => by simp only [act, load]; exact hi.tmpl k, fun i Q b n hq => ?_⟩
    simp only [Track.act, act] at hq ⊢
    by_cases hlt : i < h.length
    · rw [List.getElem?_append_left hlt] at hq
      obtain ⟨h1, h2⟩ := hi.req i Q b n hq
      rw [List.getElem?_append_left (by rw [hi.len]; exact hlt)]
      refine ⟨h1, fun k => ?_⟩
      simp only [load]
      rw [if_neg (by rw [hi.len]; omega)]
      exact h2 k
    · rw [List.getElem?_append_right (by omega)] at hq
      have hz : i - h.length = 0 := by
        cases hd : i - h.length with
        | zero => rfl
        | succ d => rw [hd] at hq; cases hq
      have he : i = h.length := by omega
      subst he
      rw [hz] at hq
      injection hq with hq
      injection hq with h1 hq
      injection hq with h2 h3
      subst h1; subst h2; subst h3
      rw [List.getElem?_append_right (by rw [hi.len]; exact Nat.le_refl _), hi.len]
      refine ⟨by simp [alone], fun k => ?_⟩
      simp only [load, alone, if_true]
  | go i =>
    simp only [act, Track.act]
    cases hr : h[i]? with
    | none =>
      have hn : s.reqs[i]? = none := by rw [List.getElem?_eq_none_iff] at hr ⊢; rw [hi.len]; exact hr
      rw [hn]
      rw [List.modify_eq_self (List.getElem?_eq_none_iff.1 hr)]
      exact hi
    | some x =>
      obtain ⟨P, a, n⟩ := x
      obtain ⟨h1, h2⟩ := hi.req i P a n hr
      rw [h1]
      simp only
      have htm := ht i P a n hr
      have hk := keeps_alone T hT i P a n
      have hsame : Same i (alone T i P a n).1 s.mem := ⟨fun k => by rw [alone_tmpl T hT i P a htm, hi.tmpl], fun k => (h2 k).symm⟩
      obtain ⟨e1, e2⟩ := step_same hsame hk
      have hk' : Keeps i s.mem (alone T i P a n).2 := ⟨hk.obj, fun k => by rw [h2]; exact hk.own k, fun k => by rw [← hsame.1]; exact hk.tmpl k⟩
      obtain ⟨o1, o2⟩ := step_others hk'
      refine ⟨by simp [hi.len], fun k => ?_, fun i' Q b m hq => ?_⟩
      · exact (o2 (fun j k h => htm n j k h) k).trans (hi.tmpl k)
      · by_cases hii : i' = i
        · subst hii
          rw [List.getElem?_modify, hr] at hq
          simp only [if_true, Option.map_eq_map, Option.map_some] at hq
          injection hq with hq
          injection hq with h1' hq
          injection hq with h2' h3'
          subst h1'; subst h2'; subst h3'
          have hlt : i' < s.reqs.length := (List.getElem?_eq_some_iff.1 h1).1
          refine ⟨by simp only [List.getElem?_set_self hlt, alone, e1], fun k => ?_⟩
          rw [alone]
          exact (e2.2 k).symm
        · rw [List.getElem?_modify] at hq
          simp only [if_neg (Ne.symm hii), Option.map_eq_map, Option.map_id'] at hq
          obtain ⟨g1, g2⟩ := hi.req i' Q b m hq
          rw [List.getElem?_set_ne (Ne.symm hii)]
          exact ⟨g1, fun k => (o1 i' k hii).trans (g2 k)⟩

/-- The steps of request `i`. -/
def Act.isGo (i : Nat) : Act → Bool
  | .go j => j == i
  | _ => false

/-- Arrivals. -/
def Act.isRecv : Act → Bool
  | .recv _ _ => true
  | _ => false

theorem inv_run (T : Template) (hT : Closed T) (l : List Act) : ∀ (s : St) (h : Track), Inv T s h → (∀ (i : Nat) P a n, h[i]? = some (P, a, n) → Tame T i P a) → AllTame T l →
    Inv T (run T s l) (l.foldl Track.act h) := by
  induction l with
  | nil => intro s h hi _ _; exact hi
  | cons x l ih =>
    intro s h hi ht hl
    refine ih _ _ (inv_act T hT s h x hi ht) ?_ (fun P a hm => hl P a (List.mem_cons_of_mem _ hm))
    intro i P a n hq
    cases x with
    | recv Q b =>
      simp only [Track.act] at hq
      rw [List.getElem?_append] at hq
      split at hq
      · exact ht i P a n hq
      · cases hd : i - h.length with
        | zero =>
          rw [hd] at hq
          injection hq with hq
          injection hq with h1 hq
          injection hq with h2 h3
          subst h1; subst h2
          exact hl _ _ (List.mem_cons_self ..) i
        | succ d => rw [hd] at hq; cases hq
    | go j =>
      simp only [Track.act] at hq
      rw [List.getElem?_modify] at hq
      cases hr : h[i]? with
      | none => rw [hr] at hq; cases hq
      | some x =>
        obtain ⟨Q, b, m⟩ := x
        rw [hr] at hq
        injection hq with hq
        have := ht i Q b m hr
        split at hq
        · injection hq with h1 hq
          injection hq with h2 h3
          simp only at h1 h2
          rw [← h1, ← h2]; exact this
        · injection hq with h1 hq
          injection hq with h2 h3
          rw [← h1, ← h2]; exact this

theorem track_len (l : List Act) : ∀ h : Track, (l.foldl Track.act h).length = h.length + l.countP Act.isRecv := by
  induction l with
  | nil => intro h; simp
  | cons x l ih =>
    intro h
    rw [List.foldl_cons, ih, List.countP_cons]
    cases x with
    | recv P a => simp [Track.act, Act.isRecv]; omega
    | go i => simp [Track.act, Act.isRecv]

theorem track_get (l : List Act) : ∀ (h : Track) (i : Nat) (P : Prog) (a : Input) (n : Nat), h[i]? = some (P, a, n) →
    (l.foldl Track.act h)[i]? = some (P, a, n + l.countP (Act.isGo i)) := by
  induction l with
  | nil => intro h i P a n hq; simpa using hq
  | cons x l ih =>
    intro h i P a n hq
    rw [List.foldl_cons, List.countP_cons]
    cases x with
    | recv Q b =>
      have hlt : i < h.length := (List.getElem?_eq_some_iff.1 hq).1
      rw [ih (h.act (.recv Q b)) i P a n (by simp only [Track.act]; rw [List.getElem?_append_left hlt]; exact hq)]
      simp [Act.isGo]
    | go j =>
      by_cases hj : j = i
      · subst hj
        rw [ih (h.act (.go j)) j P a (n + 1) (by simp [Track.act, List.getElem?_modify, hq])]
        simp [Act.isGo]; omega
      · rw [ih (h.act (.go j)) i P a n (by simp [Track.act, List.getElem?_modify, hq, hj])]
        simp [Act.isGo, hj]

/-- C153: if no handler writes to what the template leads to, then every request goes on as if it were alone, whatever other requests there are and in whatever order they go on. -/
theorem C153_alone_partial (T : Template) (hT : Closed T) (pre post : List Act) (P : Prog) (a : Input) (ht : AllTame T (pre ++ .recv P a :: post)) :
    let s := run T ⟨T.start, []⟩ (pre ++ .recv P a :: post)
    let i := pre.countP Act.isRecv
    s.reqs[i]? = some (alone T i P a (post.countP (Act.isGo i))).2 ∧ ∀ k, s.mem (.tmpl k) = T.mem k := by
  intro s i
  have h0 : Inv T ⟨T.start, []⟩ [] := ⟨rfl, fun _ => rfl, fun i P a n h => by cases h⟩
  have hi := inv_run T hT (pre ++ .recv P a :: post) _ _ h0 (fun i P a n h => by cases h) ht
  refine ⟨?_, hi.tmpl⟩
  refine (hi.req i P a _ ?_).1
  rw [List.foldl_append, List.foldl_cons]
  have hlen := track_len pre []
  have := track_get post ((pre.foldl Track.act []).act (.recv P a)) i P a 0 (by
    simp only [Track.act]
    rw [List.getElem?_append_right (by rw [hlen]; simp [i]), hlen]
    simp [i])
  rw [this, Nat.zero_add]

/-! ### templates without references -/

/-- No reference to the template. -/
def Free (v : Val) : Prop := ∀ c, v ≠ .ref (.tmpl c)

theorem free_step {i : Nat} {M : Mem} {L : Local} (hk : Keeps i M L) (ho : ∀ j, Free (L.obj j)) (hm : ∀ k, Free (M (.own i k))) :
    (∀ j, Free ((step i M L).2.obj j)) ∧ ∀ k, Free ((step i M L).1 (.own i k)) := by
  have put : ∀ j v o, Free v → ∀ k, Free ((L.put j v o).obj k) := by
    intro j v o hv k
    simp only [Local.put]
    split
    · exact hv
    · exact ho k
  have mem : ∀ r v, Free v → ∀ k, Free ((M.put r v) (.own i k)) := by
    intro r v hv k
    simp only [Mem.put]
    split
    · exact hv
    · exact hm k
  unfold step
  split
  · exact ⟨ho, hm⟩
  · exact ⟨put _ _ _ (by intro c h; cases h), hm⟩
  · exact ⟨put _ _ _ (ho _), hm⟩
  · exact ⟨put _ _ 0 (by intro c h; cases h), mem _ _ (ho _)⟩
  · split
    · rename_i j k _ _ r hr
      refine ⟨put _ _ _ ?_, hm⟩
      cases r with
      | tmpl c => exact absurd hr (ho k c)
      | own i' c => have := hk.obj k i' c hr; subst this; exact hm c
    · exact ⟨ho, hm⟩
  · split
    · exact ⟨ho, mem _ _ (ho _)⟩
    · exact ⟨ho, hm⟩

theorem flat_tame (T : Template) (hT : Closed T) (hf : Flat T) (i : Nat) (P : Prog) (a : Input) : Tame T i P a := by
  have key : ∀ n, (∀ j, Free ((alone T i P a n).2.obj j)) ∧ ∀ k, Free ((alone T i P a n).1 (.own i k)) := by
    intro n
    induction n with
    | zero =>
      refine ⟨fun j => ?_, fun k => ?_⟩
      · simp only [alone, recv]
        split
        · rename_i hk; obtain ⟨m, hm⟩ := hf j hk; rw [hm]; intro c h; cases h
        · split <;> (intro c h; cases h)
        · intro c h; cases h
      · simp only [alone, load, if_true]; intro c h; cases h
    | succ n ih => exact free_step (keeps_alone T hT i P a n) ih.1 ih.2
  intro n j k _ c
  exact (key n).1 j c

/-- C153: and if no kept field of the template is a reference, then this is so whatever the handlers do. -/
theorem C153_flat_partial (T : Template) (hT : Closed T) (hf : Flat T) (pre post : List Act) (P : Prog) (a : Input) :
    let i := pre.countP Act.isRecv
    (run T ⟨T.start, []⟩ (pre ++ .recv P a :: post)).reqs[i]? = some (alone T i P a (post.countP (Act.isGo i))).2 :=
  (C153_alone_partial T hT pre post P a fun Q b _ i => flat_tame T hT hf i Q b).1

/-! ### templates with references -/

/-- The first field is kept, and leads to a cell that holds `n`; the second is an input. -/
def counter (n : Nat) : Template where
  kind := fun j => if j = 0 then .kept else if j = 1 then .input else .other
  val := fun j => if j = 0 then .ref (.tmpl 0) else .num 0
  mem := fun _ => .num n

/-- Counting: read the cell, add one, write the cell. -/
def inc : Prog
  | [] => some (.load 2 0)
  | [v] => some (.set 2 (v + 1))
  | [_, _] => some (.store 0 2)
  | _ => none

/-- Keeping the input. -/
def keep : Prog
  | [] => some (.store 0 1)
  | _ => none

/-- Nothing sent. -/
def empty : Input := ⟨fun _ => .inl 0, []⟩

/-- C153 is violated: a map, slice or pointer of the template is the same in all requests, so two requests that each add one may add one together. -/
theorem C153_lost_violated (n : Nat) :
    (run (counter n) ⟨(counter n).start, []⟩ [.recv inc empty, .recv inc empty, .go 0, .go 0, .go 0, .go 1, .go 1, .go 1]).mem (.tmpl 0) = .num (n + 2) ∧
    (run (counter n) ⟨(counter n).start, []⟩ [.recv inc empty, .recv inc empty, .go 0, .go 1, .go 0, .go 1, .go 0, .go 1]).mem (.tmpl 0) = .num (n + 1) := ⟨rfl, rfl⟩

/-- C153 is violated: what one client sends can be seen by the handler of another's request. -/
theorem C153_seen_violated (n secret : Nat) :
    ((run (counter n) ⟨(counter n).start, []⟩ [.recv keep ⟨fun _ => .inl secret, []⟩, .go 0, .recv inc empty, .go 1]).reqs[1]?.map Local.seen) = some [secret] ∧
    (alone (counter n) 1 inc empty 1).2.seen = [n] := ⟨rfl, rfl⟩

/-- C153: reading what the template leads to is fine. -/
def reader : Prog
  | [] => some (.load 2 0)
  | [_] => some (.new 3 2)
  | [_, _] => some (.store 3 1)
  | [_, _, _] => some (.load 4 3)
  | _ => none

example : (run (counter 7) ⟨(counter 7).start, []⟩ [.recv reader ⟨fun _ => .inl 5, []⟩, .recv reader ⟨fun _ => .inl 6, []⟩, .go 0, .go 1, .go 1, .go 0, .go 0, .go 1, .go 1, .go 0]).reqs.map Local.seen =
    [[7, 0, 0, 5], [7, 0, 0, 6]] := rfl

/-- Cells are new: a handler that makes two and reads both sees two values. -/
def maker : Prog
  | [] => some (.set 2 8)
  | [_] => some (.new 3 1)
  | [_, _] => some (.new 4 2)
  | [_, _, _] => some (.load 5 3)
  | [_, _, _, _] => some (.load 5 4)
  | _ => none

example : (run (counter 7) ⟨(counter 7).start, []⟩ [.recv maker ⟨fun _ => .inl 5, []⟩, .go 0, .go 0, .go 0, .go 0, .go 0]).reqs.map Local.seen = [[0, 0, 0, 5, 8]] := rfl

/-- C153: that handler is tame. -/
theorem reader_tame (n i : Nat) (a : Input) : Tame (counter n) i reader a := by
  have h0 : (alone (counter n) i reader a 0).2.seen = [] := rfl
  intro m j k hc c
  match m with
  | 0 => cases hc
  | 1 => cases hc
  | 2 =>
    have e : (alone (counter n) i reader a 2).2.prog (alone (counter n) i reader a 2).2.seen = some (.store 3 1) := rfl
    rw [e] at hc
    cases hc
    intro h
    cases h
  | 3 => 
    have e : (alone (counter n) i reader a 3).2.prog (alone (counter n) i reader a 3).2.seen = some (.load 4 3) := rfl
    rw [e] at hc
    cases hc
  | m + 4 =>
    have e : ∀ m, (alone (counter n) i reader a (m + 4)).2.prog (alone (counter n) i reader a (m + 4)).2.seen = none := by
      intro m
      induction m with
      | zero => rfl
      | succ m ih =>
        have : alone (counter n) i reader a (m + 1 + 4) = alone (counter n) i reader a (m + 4) := by
          rw [show m + 1 + 4 = (m + 4) + 1 from rfl, alone, step, ih]
        rw [this]; exact ih
    rw [e m] at hc
    cases hc

/-- C153: so it is alone in any company of its kind. -/
example (n : Nat) (a : Input) : let l : List Act := [.recv reader empty, .go 0, .recv reader a, .go 1, .go 0, .go 1]
    (run (counter n) ⟨(counter n).start, []⟩ l).reqs[1]? = some (alone (counter n) 1 reader a 2).2 := by
  refine (C153_alone_partial (counter n) ⟨?_, ?_⟩ [.recv reader empty, .go 0] [.go 1, .go 0, .go 1] reader a ?_).1
  · intro j i k h; simp only [counter] at h; split at h <;> cases h
  · intro c i k h; cases h
  · intro P b hm i
    simp only [List.cons_append, List.nil_append, List.mem_cons, Act.recv.injEq, reduceCtorEq, List.not_mem_nil, or_false, false_or] at hm
    rcases hm with ⟨rfl, -⟩ | ⟨rfl, -⟩ <;> exact reader_tame n i _

/-- Fields that are neither kept nor inputs are zero, and of a reference nothing is seen. -/
example (n : Nat) : (alone (counter n) 0 (fun | [] => some (.copy 3 2) | [_] => some (.copy 3 0) | _ => none) empty 2).2.seen = [0, 0] := rfl

end Verif.Api.Isolate

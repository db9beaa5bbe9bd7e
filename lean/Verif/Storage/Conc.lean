import Verif.Storage.Props
/-!
# The key-value store used by several goroutines (C159) (storage/keyvalue.go)

`Storage.Model` takes each operation as one step. Here the goroutines are interleaved: a call waits for the mutex, `Range` checks one
record at a time while it holds it, and calls back after releasing it; callbacks may call the store themselves. Records are maps shared
with everybody who ever stored or got them, and may be edited at any time: that is no step of the store and takes no lock.
Logging (keyvalue.go L68) is not modelled; a log function that uses the store would wait for the mutex its own goroutine holds.
-/
set_option autoImplicit false
namespace Verif.Storage.Conc
open Verif.Strconv Verif.Enc Verif.Storage

/-- The calls of the store. storage/keyvalue.go L32-86. -/
inductive Req (X : Ext) where
  | get (k : Str)
  | upsert (k : Str) (v : Ref)
  | delete (k : Str)
  | range (fs : List (Filter X))

/-- What is known when the mutex is released: for `Range` the list to call back with, or the failed check. keyvalue.go L35-36, L65, L73. -/
inductive Res where
  | ref (v : Ref)
  | unit
  | items (l : List (Str × Ref))
  | fail (e : Fail)
  deriving DecidableEq

/-- Where a call is. keyvalue.go L32-86. -/
inductive Fr (X : Ext) where
  /-- waiting for the mutex -/
  | called (id : Nat) (op : Req X)
  /-- holding it; for `Range` the entries still to check and the list so far -/
  | inside (id : Nat) (op : Req X) (rest acc : List (Str × Ref))
  /-- calling back (L77-85): whether a callback has been called, and the entries that remain -/
  | visiting (id : Nat) (cb : Bool) (rest : List (Str × Ref))
  /-- about to return -/
  | leaving (id : Nat) (r : Res)

/-- What happens. `took` is the release of the mutex. keyvalue.go L32-86. -/
inductive Ev (X : Ext) where
  | call (id : Nat) (op : Req X)
  | took (id : Nat) (op : Req X) (r : Res)
  | ret (id : Nat) (r : Res)
  | visit (id : Nat) (k : Str) (v : Ref)
  /-- `Range` returns after its callbacks; `all` if none of them stopped it -/
  | ended (id : Nat) (all : Bool)
  | edited (r : Nat) (rec : List (Str × Node X))

/-- The heap of records, the store, who holds the mutex, the number of calls made, and the goroutines: each a stack of calls, the
inner ones made by callbacks of the outer ones. keyvalue.go L19-22. -/
structure St (X : Ext) where
  heap : Nat → List (Str × Node X)
  data : List (Str × Ref)
  lock : Option Nat
  next : Nat
  th : Nat → List (Fr X)

/-- The record behind a reference. keyvalue.go L98-102. -/
def record {X : Ext} (heap : Nat → List (Str × Node X)) : Ref → List (Str × Node X)
  | none => []
  | some r => heap r

/-- A goroutine's stack is replaced. -/
def St.put {X : Ext} (s : St X) (t : Nat) (k : List (Fr X)) : Nat → List (Fr X) := fun u => if u = t then k else s.th u

/-- A goroutine can call the store if it is not in a call, or if it is in a callback. keyvalue.go L78. -/
def free {X : Ext} : List (Fr X) → Bool
  | [] => true
  | .visiting _ cb _ :: _ => cb
  | _ :: _ => false

/-- A fresh store. keyvalue.go L26-30. -/
def init {X : Ext} (heap : Nat → List (Str × Node X)) : St X := ⟨heap, [], none, 0, fun _ => []⟩

section
variable {X : Ext} (isPrint : Char → Bool) (o : Orders) (calm : Bool)

/-- One step of goroutine `t`. With `calm`, records are not edited while the mutex is held: an assumption on the callers that nothing in
the code enforces. -/
inductive Step : St X → Nat → List (Ev X) → St X → Prop where
  /-- a method is called -/
  | call (s : St X) (t : Nat) (op : Req X) (h : free (s.th t) = true) :
    Step s t [.call s.next op] { s with next := s.next + 1, th := s.put t (.called s.next op :: s.th t) }
  /-- `m.Lock()`. L33, L40, L47 -/
  | enter (s : St X) (t id : Nat) (op : Req X) (k : List (Fr X)) (h : s.th t = .called id op :: k) (hl : s.lock = none) (hop : ∀ fs, op ≠ .range fs) :
    Step s t [] { s with lock := some t, th := s.put t (.inside id op [] [] :: k) }
  /-- `m.Lock()` and the start of the iteration, in any order. L60-62 -/
  | enterRange (s : St X) (t id : Nat) (fs : List (Filter X)) (order : List (Str × Ref)) (k : List (Fr X)) (h : s.th t = .called id (.range fs) :: k)
    (hl : s.lock = none) (ho : order.Perm s.data) :
    Step s t [] { s with lock := some t, th := s.put t (.inside id (.range fs) order [] :: k) }
  /-- L34-36 -/
  | get (s : St X) (t id : Nat) (key : Str) (rest acc : List (Str × Ref)) (k : List (Fr X)) (h : s.th t = .inside id (.get key) rest acc :: k) :
    Step s t [.took id (.get key) (.ref ((lookupKey key s.data).getD none))]
      { s with lock := none, th := s.put t (.leaving id (.ref ((lookupKey key s.data).getD none)) :: k) }
  /-- L41-43 -/
  | upsert (s : St X) (t id : Nat) (key : Str) (v : Ref) (rest acc : List (Str × Ref)) (k : List (Fr X)) (h : s.th t = .inside id (.upsert key v) rest acc :: k) :
    Step s t [.took id (.upsert key v) .unit] { s with data := insertKey key v s.data, lock := none, th := s.put t (.leaving id .unit :: k) }
  /-- L48-50 -/
  | delete (s : St X) (t id : Nat) (key : Str) (rest acc : List (Str × Ref)) (k : List (Fr X)) (h : s.th t = .inside id (.delete key) rest acc :: k) :
    Step s t [.took id (.delete key) .unit] { s with data := s.data.filter (fun e => e.1 ≠ key), lock := none, th := s.put t (.leaving id .unit :: k) }
  /-- a record is checked. L63, L69-71 -/
  | check (s : St X) (t id : Nat) (fs : List (Filter X)) (e : Str × Ref) (rest acc : List (Str × Ref)) (ok : Bool) (k : List (Fr X))
    (h : s.th t = .inside id (.range fs) (e :: rest) acc :: k) (hc : checkAll isPrint o (record s.heap e.2) fs = .ok ok) :
    Step s t [] { s with th := s.put t (.inside id (.range fs) rest (if ok then acc ++ [e] else acc) :: k) }
  /-- a check fails. L64-66, L74-76 -/
  | fail (s : St X) (t id : Nat) (fs : List (Filter X)) (e : Str × Ref) (rest acc : List (Str × Ref)) (x : Fail) (k : List (Fr X))
    (h : s.th t = .inside id (.range fs) (e :: rest) acc :: k) (hc : checkAll isPrint o (record s.heap e.2) fs = .error x) :
    Step s t [.took id (.range fs) (.fail x)] { s with lock := none, th := s.put t (.leaving id (.fail x) :: k) }
  /-- all records are checked. L73 -/
  | snap (s : St X) (t id : Nat) (fs : List (Filter X)) (acc : List (Str × Ref)) (k : List (Fr X)) (h : s.th t = .inside id (.range fs) [] acc :: k) :
    Step s t [.took id (.range fs) (.items acc)] { s with lock := none, th := s.put t (.visiting id false acc :: k) }
  /-- a callback starts (the one before returned nil). L77-78 -/
  | visit (s : St X) (t id : Nat) (cb : Bool) (e : Str × Ref) (rest : List (Str × Ref)) (k : List (Fr X)) (h : s.th t = .visiting id cb (e :: rest) :: k) :
    Step s t [.visit id e.1 e.2] { s with th := s.put t (.visiting id true rest :: k) }
  /-- a callback returns an error. L79-83 -/
  | stop (s : St X) (t id : Nat) (rest : List (Str × Ref)) (k : List (Fr X)) (h : s.th t = .visiting id true rest :: k) :
    Step s t [.ended id false] { s with th := s.put t k }
  /-- the last callback returned nil. L85 -/
  | finish (s : St X) (t id : Nat) (cb : Bool) (k : List (Fr X)) (h : s.th t = .visiting id cb [] :: k) :
    Step s t [.ended id true] { s with th := s.put t k }
  /-- a method returns -/
  | ret (s : St X) (t id : Nat) (r : Res) (k : List (Fr X)) (h : s.th t = .leaving id r :: k) :
    Step s t [.ret id r] { s with th := s.put t k }
  /-- a goroutine writes to a record -/
  | edit (s : St X) (t r : Nat) (rec : List (Str × Node X)) (h : free (s.th t) = true) (hc : calm = true → s.lock = none) :
    Step s t [.edited r rec] { s with heap := fun q => if q = r then rec else s.heap q }

/-- Any number of steps of any goroutines, and what happened. -/
inductive Exec (s0 : St X) : List (Ev X) → St X → Prop where
  | nil : Exec s0 [] s0
  | snoc {tr : List (Ev X)} {s s' : St X} {t : Nat} {evs : List (Ev X)} (h : Exec s0 tr s) (hs : Step isPrint o calm s t evs s') : Exec s0 (tr ++ evs) s'

/-! ### what is promised -/

/-- A store as users see it: records and a map. -/
structure Abs (X : Ext) where
  heap : Nat → List (Str × Node X)
  map : Str → Option Ref

/-- What a call does when it is alone. With `calm` the list of a `Range` is exactly the matching entries; without, entries of the store. -/
inductive Eff : Abs X → Req X → Res → Abs X → Prop where
  | get (a : Abs X) (k : Str) : Eff a (.get k) (.ref ((a.map k).getD none)) a
  | upsert (a : Abs X) (k : Str) (v : Ref) : Eff a (.upsert k v) .unit ⟨a.heap, fun q => if q = k then some v else a.map q⟩
  | delete (a : Abs X) (k : Str) : Eff a (.delete k) .unit ⟨a.heap, fun q => if q = k then none else a.map q⟩
  | items (a : Abs X) (fs : List (Filter X)) (l : List (Str × Ref)) (hn : (l.map Prod.fst).Nodup) (hm : ∀ e ∈ l, a.map e.1 = some e.2)
    (hc : calm = true → ∀ k v, (k, v) ∈ l ↔ a.map k = some v ∧ matchesAll isPrint o fs (record a.heap v)) : Eff a (.range fs) (.items l) a
  | fail (a : Abs X) (fs : List (Filter X)) (x : Fail) (k : Str) (v : Ref) (hm : a.map k = some v) (hx : ∃ f ∈ fs, f.check isPrint o (record a.heap v) = .error x) :
    Eff a (.range fs) (.fail x) a

/-- What happened explained by calls that are alone, in the order they released the mutex. -/
inductive Replay (a0 : Abs X) : List (Ev X) → Abs X → Prop where
  | nil : Replay a0 [] a0
  | took {tr : List (Ev X)} {a b : Abs X} {id : Nat} {op : Req X} {r : Res} (h : Replay a0 tr a) (he : Eff isPrint o calm a op r b) : Replay a0 (tr ++ [.took id op r]) b
  | edited {tr : List (Ev X)} {a : Abs X} {r : Nat} {rec : List (Str × Node X)} (h : Replay a0 tr a) :
    Replay a0 (tr ++ [.edited r rec]) ⟨fun q => if q = r then rec else a.heap q, a.map⟩
  | call {tr : List (Ev X)} {a : Abs X} {id : Nat} {op : Req X} (h : Replay a0 tr a) : Replay a0 (tr ++ [.call id op]) a
  | ret {tr : List (Ev X)} {a : Abs X} {id : Nat} {r : Res} (h : Replay a0 tr a) : Replay a0 (tr ++ [.ret id r]) a
  | visit {tr : List (Ev X)} {a : Abs X} {id : Nat} {k : Str} {v : Ref} (h : Replay a0 tr a) : Replay a0 (tr ++ [.visit id k v]) a
  | ended {tr : List (Ev X)} {a : Abs X} {id : Nat} {all : Bool} (h : Replay a0 tr a) : Replay a0 (tr ++ [.ended id all]) a

/-! ### invariants -/

/-- The call a frame belongs to. -/
def Fr.id : Fr X → Nat
  | .called i _ | .inside i _ _ _ | .visiting i _ _ | .leaving i _ => i

/-- A frame that is not on top is in a callback. -/
def Fr.below : Fr X → Prop
  | .visiting _ cb _ => cb = true
  | _ => False

/-- What holds for a goroutine: only the top frame can be anything but a callback, and it is inside the critical section exactly if the
goroutine holds the mutex. -/
def OkStack (mine : Prop) : List (Fr X) → Prop
  | [] => ¬mine
  | f :: k => (∀ g ∈ k, g.below) ∧ (match f with | .inside _ _ _ _ => mine | _ => ¬mine)

/-- What the frame inside the critical section knows. -/
def Prog (s : St X) (t : Nat) : Prop :=
  ∀ id fs rest acc k, s.th t = .inside id (.range fs) rest acc :: k →
    ∃ dn, (dn ++ rest).Perm s.data ∧ acc.Sublist dn ∧ (calm = true → ∀ e ∈ dn, e ∈ acc ↔ matchesAll isPrint o fs (record s.heap e.2))

/-- The mutex excludes, and `Range` has checked what it has passed. -/
structure Inv (s : St X) : Prop where
  sorted : SortedKeys s.data
  shape : ∀ t, OkStack (s.lock = some t) (s.th t)
  prog : ∀ t, Prog isPrint o calm s t

variable {isPrint o calm}

theorem put_self (s : St X) (t : Nat) (k : List (Fr X)) : s.put t k t = k := by simp [St.put]
theorem put_other (s : St X) {t u : Nat} (k : List (Fr X)) (h : u ≠ t) : s.put t k u = s.th u := by simp [St.put, h]

theorem shape_put {s : St X} {lock : Option Nat} {t : Nat} {K : List (Fr X)} (hs : ∀ t, OkStack (s.lock = some t) (s.th t))
    (hl : ∀ u, u ≠ t → (lock = some u ↔ s.lock = some u)) (hK : OkStack (lock = some t) K) : ∀ u, OkStack (lock = some u) (s.put t K u) := by
  intro u
  by_cases h : u = t
  · subst h; rw [put_self]; exact hK
  · rw [put_other _ _ h, (propext (hl u h) : (lock = some u) = _)]; exact hs u

theorem holder {s : St X} (hi : ∀ t, OkStack (s.lock = some t) (s.th t)) {t id : Nat} {op : Req X} {rest acc : List (Str × Ref)} {k : List (Fr X)}
    (h : s.th t = .inside id op rest acc :: k) : s.lock = some t ∧ ∀ g ∈ k, g.below := by
  have := hi t; rw [h] at this; exact ⟨this.2, this.1⟩

/-- A stack of callbacks only is fine for a goroutine that does not hold the mutex. -/
theorem ok_below {mine : Prop} {k : List (Fr X)} (hb : ∀ g ∈ k, g.below) (hm : ¬mine) : OkStack mine k := by
  cases k with
  | nil => exact hm
  | cons f k =>
    refine ⟨fun g hg => hb g (by simp [hg]), ?_⟩
    have := hb f (by simp)
    cases f <;> first | exact hm | exact this.elim

theorem inv_init (heap : Nat → List (Str × Node X)) : Inv isPrint o calm (init heap) :=
  ⟨by simp [init, SortedKeys], fun t => by simp [init, OkStack], fun t id fs rest acc k h => by simp [init] at h⟩

/-- A step that leaves records and store alone and puts no goroutine into a `Range`. -/
theorem prog_put {s : St X} {t : Nat} {K : List (Fr X)} {lock : Option Nat} {n : Nat} (hp : ∀ t, Prog isPrint o calm s t)
    (hK : ∀ id fs rest acc k, K ≠ .inside id (.range fs) rest acc :: k) : ∀ u, Prog isPrint o calm ⟨s.heap, s.data, lock, n, s.put t K⟩ u := by
  intro u id fs rest acc k h
  by_cases e : u = t
  · subst e; exact absurd (by simpa [St.put] using h) (hK id fs rest acc k)
  · exact hp u id fs rest acc k (by simpa [St.put, e] using h)

theorem inv_step {s s' : St X} {t : Nat} {evs : List (Ev X)} (hi : Inv isPrint o calm s) (hs : Step isPrint o calm s t evs s') : Inv isPrint o calm s' := by
  obtain ⟨hsort, hshape, hprog⟩ := hi
  have top : ∀ {f k}, s.th t = f :: k → (∀ g ∈ k, g.below) := fun h => by have := hshape t; rw [h] at this; exact this.1
  have rel : ∀ {id op rest acc k}, s.th t = .inside id op rest acc :: k → ∀ u, u ≠ t → ((none : Option Nat) = some u ↔ s.lock = some u) := by
    intro id op rest acc k h u hu
    rw [(holder hshape h).1]
    constructor
    · intro e; cases e
    · intro e; injection e with e; exact absurd e.symm hu
  have other : ∀ {id op rest acc k}, s.th t = .inside id op rest acc :: k → ∀ {u id' op' rest' acc' k'}, u ≠ t → s.th u ≠ .inside id' op' rest' acc' :: k' := by
    intro id op rest acc k h u id' op' rest' acc' k' hu h'
    have h1 := (holder hshape h).1
    have h2 := (holder hshape h').1
    rw [h1] at h2; injection h2 with h2; exact hu h2.symm
  cases hs with
  | call op h =>
    refine ⟨hsort, shape_put hshape (fun u _ => Iff.rfl) ?_, prog_put hprog (by simp)⟩
    have := hshape t
    cases hk : s.th t with
    | nil => rw [hk] at this; exact ⟨by simp, this⟩
    | cons f k =>
      rw [hk] at this h
      cases f with
      | visiting id cb rest =>
        refine ⟨?_, this.2⟩
        intro g hg
        rcases List.mem_cons.1 hg with rfl | hg
        · exact h
        · exact this.1 g hg
      | _ => simp [free] at h
  | enter id op k h hl hop =>
    refine ⟨hsort, shape_put hshape (fun u hu => ?_) ⟨top h, rfl⟩, prog_put hprog ?_⟩
    · rw [hl]; constructor <;> intro e
      · injection e with e; exact absurd e.symm hu
      · cases e
    · intro id' fs rest acc k' e
      injection e with e1 e2; injection e1 with _ e1
      exact hop fs e1
  | enterRange id fs order k h hl ho =>
    refine ⟨hsort, shape_put hshape (fun u hu => ?_) ⟨top h, rfl⟩, ?_⟩
    · rw [hl]; constructor <;> intro e
      · injection e with e; exact absurd e.symm hu
      · cases e
    · intro u id' fs' rest acc k' h'
      by_cases e : u = t
      · subst e
        simp [St.put] at h'
        obtain ⟨⟨rfl, rfl, rfl, rfl⟩, rfl⟩ := h'
        exact ⟨[], by simpa using ho, by simp, by simp⟩
      · exact hprog u id' fs' rest acc k' (by simpa [St.put, e] using h')
  | get id key rest acc k h =>
    exact ⟨hsort, shape_put hshape (rel h) ⟨top h, by simp⟩, prog_put hprog (by simp)⟩
  | upsert id key v rest acc k h =>
    refine ⟨sorted_insertKey key v _ hsort, shape_put hshape (rel h) ⟨top h, by simp⟩, ?_⟩
    intro u id' fs' rest' acc' k' h'
    by_cases e : u = t
    · subst e; simp [St.put] at h'
    · exact absurd (by simpa [St.put, e] using h') (other h e)
  | delete id key rest acc k h =>
    refine ⟨List.Pairwise.filter _ hsort, shape_put hshape (rel h) ⟨top h, by simp⟩, ?_⟩
    intro u id' fs' rest' acc' k' h'
    by_cases e : u = t
    · subst e; simp [St.put] at h'
    · exact absurd (by simpa [St.put, e] using h') (other h e)
  | check id fs e rest acc ok k h hc =>
    refine ⟨hsort, shape_put hshape (fun u _ => Iff.rfl) ⟨top h, (holder hshape h).1⟩, ?_⟩
    intro u id' fs' rest' acc' k' h'
    by_cases hu : u = t
    · subst hu
      simp [St.put] at h'
      obtain ⟨⟨rfl, rfl, rfl, rfl⟩, rfl⟩ := h'
      obtain ⟨dn, h1, h2, h3⟩ := hprog u id fs (e :: rest) acc k h
      refine ⟨dn ++ [e], by simpa using h1, ?_, ?_⟩
      · cases ok
        · exact h2.trans (List.sublist_append_left dn [e])
        · exact h2.append (List.Sublist.refl [e])
      · intro hcalm x hx
        have hnd : dn.Nodup ∧ e ∉ dn := by
          have hn : s.data.Nodup := hsort.imp (fun h e => by rw [e, strLt_irrefl] at h; cases h)
          have := h1.nodup_iff.2 hn
          rw [List.nodup_append] at this
          exact ⟨this.1, fun hm => this.2.2 e hm e (by simp) rfl⟩
        have hea : e ∉ acc := fun hm => hnd.2 (h2.mem hm)
        rcases List.mem_append.1 hx with hx | hx
        · have hne : x ≠ e := fun h => hnd.2 (h ▸ hx)
          rw [← h3 hcalm x hx]
          cases ok <;> simp [hne]
        · rw [List.mem_singleton.1 hx, ← checkAll_true, hc]
          cases ok <;> simp [hea]
    · exact hprog u id' fs' rest' acc' k' (by simpa [St.put, hu] using h')
  | fail id fs e rest acc x k h hc =>
    exact ⟨hsort, shape_put hshape (rel h) ⟨top h, by simp⟩, prog_put hprog (by simp)⟩
  | snap id fs acc k h =>
    exact ⟨hsort, shape_put hshape (rel h) ⟨top h, by simp⟩, prog_put hprog (by simp)⟩
  | visit id cb e rest k h =>
    have := hshape t; rw [h] at this
    exact ⟨hsort, shape_put hshape (fun u _ => Iff.rfl) ⟨top h, this.2⟩, prog_put hprog (by simp)⟩
  | stop id rest k h =>
    have := hshape t; rw [h] at this
    refine ⟨hsort, shape_put hshape (fun u _ => Iff.rfl) (ok_below (top h) this.2), prog_put hprog ?_⟩
    intro id' fs rest acc k' e
    exact top h (.inside id' (.range fs) rest acc) (by simp [e])
  | finish id cb k h =>
    have := hshape t; rw [h] at this
    refine ⟨hsort, shape_put hshape (fun u _ => Iff.rfl) (ok_below (top h) this.2), prog_put hprog ?_⟩
    intro id' fs rest acc k' e
    exact top h (.inside id' (.range fs) rest acc) (by simp [e])
  | ret id r k h =>
    have := hshape t; rw [h] at this
    refine ⟨hsort, shape_put hshape (fun u _ => Iff.rfl) (ok_below (top h) this.2), prog_put hprog ?_⟩
    intro id' fs rest acc k' e
    exact top h (.inside id' (.range fs) rest acc) (by simp [e])
  | edit r rec h hc =>
    refine ⟨hsort, hshape, ?_⟩
    intro u id fs rest acc k hu
    obtain ⟨dn, h1, h2, _⟩ := hprog u id fs rest acc k hu
    refine ⟨dn, h1, h2, fun hcalm => ?_⟩
    have := (holder hshape hu).1
    rw [hc hcalm] at this; cases this

theorem inv_exec {s0 s : St X} {tr : List (Ev X)} (h0 : Inv isPrint o calm s0) (h : Exec isPrint o calm s0 tr s) : Inv isPrint o calm s := by
  induction h with
  | nil => exact h0
  | snoc _ hs ih => exact inv_step ih hs

/-! ### every call happens in one moment -/

/-- What users see of a state. -/
def St.abs (s : St X) : Abs X := ⟨s.heap, fun k => lookupKey k s.data⟩

theorem replay_step {s s' : St X} {t : Nat} {evs tr : List (Ev X)} {a0 : Abs X} (hi : Inv isPrint o calm s) (hs : Step isPrint o calm s t evs s')
    (hr : Replay isPrint o calm a0 tr s.abs) : Replay isPrint o calm a0 (tr ++ evs) s'.abs := by
  cases hs with
  | call op h => exact .call hr
  | enter id op k h hl hop => rw [List.append_nil]; exact hr
  | enterRange id fs order k h hl ho => rw [List.append_nil]; exact hr
  | get id key rest acc k h => exact .took hr (.get s.abs key)
  | upsert id key v rest acc k h =>
    refine .took hr ?_
    have : St.abs { s with data := insertKey key v s.data, lock := none, th := s.put t (.leaving id .unit :: k) } =
        ⟨s.abs.heap, fun q => if q = key then some v else s.abs.map q⟩ := by
      simp only [St.abs]; congr 1; funext q; rw [lookup_insertKey]
    rw [this]; exact .upsert _ _ _
  | delete id key rest acc k h =>
    refine .took hr ?_
    have : St.abs { s with data := s.data.filter (fun e => e.1 ≠ key), lock := none, th := s.put t (.leaving id .unit :: k) } =
        ⟨s.abs.heap, fun q => if q = key then none else s.abs.map q⟩ := by
      simp only [St.abs]; congr 1; funext q; rw [lookup_filter]
    rw [this]; exact .delete _ _
  | check id fs e rest acc ok k h hc => rw [List.append_nil]; exact hr
  | fail id fs e rest acc x k h hc =>
    refine .took hr ?_
    obtain ⟨dn, h1, _, _⟩ := hi.prog t id fs (e :: rest) acc k h
    obtain ⟨pre, post, f, hf, _, hx⟩ := (checkAll_error isPrint o fs _ x).1 hc
    exact .fail s.abs fs x e.1 e.2 (lookup_of_mem hi.sorted (h1.mem_iff.1 (by simp))) ⟨f, by simp [hf], hx⟩
  | snap id fs acc k h =>
    refine .took hr ?_
    obtain ⟨dn, h1, h2, h3⟩ := hi.prog t id fs [] acc k h
    rw [List.append_nil] at h1
    have hm : ∀ e ∈ acc, lookupKey e.1 s.data = some e.2 := fun e he => lookup_of_mem hi.sorted (h1.mem_iff.1 (h2.mem he))
    refine .items s.abs fs acc ?_ hm ?_
    · have hnd : (s.data.map Prod.fst).Nodup := by
        unfold List.Nodup
        rw [List.pairwise_map]
        exact hi.sorted.imp (fun h e => by rw [e, strLt_irrefl] at h; cases h)
      exact ((h1.map Prod.fst).nodup_iff.2 hnd).sublist (h2.map _)
    · intro hcalm k v
      constructor
      · intro he; exact ⟨hm _ he, (h3 hcalm _ (h2.mem he)).1 he⟩
      · rintro ⟨hk, hmt⟩
        exact (h3 hcalm (k, v) (h1.mem_iff.2 (mem_of_lookup hk))).2 hmt
  | visit id cb e rest k h => exact .visit hr
  | stop id rest k h => exact .ended hr
  | finish id cb k h => exact .ended hr
  | ret id r k h => exact .ret hr
  | edit r rec h hc => exact .edited hr

/-- What happened is what the calls do one after the other, in the order in which they released the mutex. -/
theorem replay {heap : Nat → List (Str × Node X)} {tr : List (Ev X)} {s : St X} (h : Exec isPrint o calm (init heap) tr s) :
    Replay isPrint o calm ⟨heap, fun _ => none⟩ tr s.abs := by
  induction h with
  | nil => exact .nil
  | snoc h hs ih => exact replay_step (inv_exec (inv_init heap) h) hs ih

end

/-- C159, what holds: if no record is edited while the mutex is held, all that happens in any interleaving is what the calls do one after
the other, each in one moment: the list of a `Range` is exactly the entries of the store that match at that moment.
What is missing: nothing keeps callers from editing records at other times (`C159_moment_violated`). -/
theorem C159_linearizable_partial {X : Ext} (isPrint : Char → Bool) (o : Orders) (heap : Nat → List (Str × Node X)) (tr : List (Ev X)) (s : St X)
    (h : Exec isPrint o true (init heap) tr s) : Replay isPrint o true ⟨heap, fun _ => none⟩ tr ⟨s.heap, fun k => lookupKey k s.data⟩ := replay h

/-- C159: whatever is edited and when, `Get`, `Upsert` and `Delete` do what they do alone, one after the other, and the list of a `Range`
has only entries of the store of one moment, each key once. -/
theorem C159_keys {X : Ext} (isPrint : Char → Bool) (o : Orders) (heap : Nat → List (Str × Node X)) (tr : List (Ev X)) (s : St X)
    (h : Exec isPrint o false (init heap) tr s) : Replay isPrint o false ⟨heap, fun _ => none⟩ tr ⟨s.heap, fun k => lookupKey k s.data⟩ := replay h

/-! ### when a call happens -/

/-- The call an event belongs to. -/
def Ev.id {X : Ext} : Ev X → Option Nat
  | .call i _ | .took i _ _ | .ret i _ | .visit i _ _ | .ended i _ => some i
  | .edited _ _ => none

/-- The callbacks of a call. -/
def visits {X : Ext} (id : Nat) (tr : List (Ev X)) : List (Str × Ref) :=
  tr.filterMap fun | .visit i k v => if i = id then some (k, v) else none | _ => none

/-- What may happen after `p`: a call has a name of its own; it takes effect after it was made, and once; it returns once, after it took
effect, and returns what it saw then; a `Range` calls back with the entries it saw, one by one in their order, and returns once: after
all of them, unless a callback stopped it. -/
def Lawful {X : Ext} (p : List (Ev X)) : Ev X → Prop
  | .call id _ => ∀ e ∈ p, e.id ≠ some id
  | .took id op _ => Ev.call id op ∈ p ∧ ∀ e ∈ p, e.id = some id → e = .call id op
  | .ret id r => (∃ op, Ev.took id op r ∈ p) ∧ ∀ r', Ev.ret id r' ∉ p
  | .visit id k v => ∃ fs l rest, Ev.took id (.range fs) (.items l) ∈ p ∧ l = visits id p ++ (k, v) :: rest ∧ ∀ b, Ev.ended id b ∉ p
  | .ended id all => ∃ fs l rest, Ev.took id (.range fs) (.items l) ∈ p ∧ l = visits id p ++ rest ∧ (all = true → rest = []) ∧ (all = false → visits id p ≠ []) ∧
      ∀ b, Ev.ended id b ∉ p
  | .edited _ _ => True

/-- What a frame tells of the past. -/
def FrOk {X : Ext} (tr : List (Ev X)) : Fr X → Prop
  | .called id op | .inside id op _ _ => Ev.call id op ∈ tr ∧ ∀ e ∈ tr, e.id = some id → e = .call id op
  | .visiting id cb rest => ∃ fs l, Ev.took id (.range fs) (.items l) ∈ tr ∧ l = visits id tr ++ rest ∧ (cb = true → visits id tr ≠ []) ∧ ∀ b, Ev.ended id b ∉ tr
  | .leaving id r => (∃ op, Ev.took id op r ∈ tr) ∧ ∀ r', Ev.ret id r' ∉ tr

/-- Calls have names of their own and are where the past says they are. -/
structure TInv {X : Ext} (tr : List (Ev X)) (s : St X) : Prop where
  old : ∀ e ∈ tr, ∀ i, e.id = some i → i < s.next
  fr : ∀ t, ∀ f ∈ s.th t, f.id < s.next ∧ FrOk tr f
  nodup : ∀ t, ((s.th t).map Fr.id).Nodup
  apart : ∀ t u, t ≠ u → ∀ f ∈ s.th t, ∀ g ∈ s.th u, f.id ≠ g.id

section
variable {X : Ext} {isPrint : Char → Bool} {o : Orders} {calm : Bool}

theorem visits_append (id : Nat) (tr evs : List (Ev X)) : visits id (tr ++ evs) = visits id tr ++ visits id evs := by
  simp [visits, List.filterMap_append]

theorem visits_other (id : Nat) (evs : List (Ev X)) (h : ∀ e ∈ evs, e.id ≠ some id) : visits id evs = [] := by
  induction evs with
  | nil => rfl
  | cons e evs ih =>
    have he := h e (by simp)
    have := ih (fun x hx => h x (by simp [hx]))
    cases e with
    | visit i k v =>
      have hi : i ≠ id := fun x => he (by simp [Ev.id, x])
      simpa [visits, hi] using this
    | _ => simpa [visits] using this

theorem frok_append {tr evs : List (Ev X)} {f : Fr X} (h : FrOk tr f) (he : ∀ e ∈ evs, e.id ≠ some f.id) : FrOk (tr ++ evs) f := by
  cases f with
  | called id op =>
    refine ⟨by simp [h.1], fun e hm hid => ?_⟩
    rcases List.mem_append.1 hm with hm | hm
    · exact h.2 e hm hid
    · exact absurd hid (he e hm)
  | inside id op rest acc =>
    refine ⟨by simp [h.1], fun e hm hid => ?_⟩
    rcases List.mem_append.1 hm with hm | hm
    · exact h.2 e hm hid
    · exact absurd hid (he e hm)
  | visiting id cb rest =>
    obtain ⟨fs, l, h1, h2, h3, h4⟩ := h
    have hv : visits id (tr ++ evs) = visits id tr := by rw [visits_append, visits_other id evs he, List.append_nil]
    refine ⟨fs, l, by simp [h1], by rw [hv]; exact h2, by rw [hv]; exact h3, fun b hm => ?_⟩
    rcases List.mem_append.1 hm with hm | hm
    · exact h4 b hm
    · exact he _ hm rfl
  | leaving id r =>
    obtain ⟨⟨op, h1⟩, h2⟩ := h
    refine ⟨⟨op, by simp [h1]⟩, fun r' hm => ?_⟩
    rcases List.mem_append.1 hm with hm | hm
    · exact h2 r' hm
    · exact he _ hm rfl

theorem tinv_put {s : St X} {tr evs : List (Ev X)} {t : Nat} {f : Fr X} {k K : List (Fr X)} {heap : Nat → List (Str × Node X)} {data : List (Str × Ref)} {lock : Option Nat}
    (hi : TInv tr s) (h : s.th t = f :: k) (he : ∀ e ∈ evs, e.id = some f.id) (hsub : (K.map Fr.id).Sublist ((f :: k).map Fr.id))
    (hK : ∀ g ∈ K, g ∈ k ∨ (g.id = f.id ∧ FrOk (tr ++ evs) g)) : TInv (tr ++ evs) ⟨heap, data, lock, s.next, s.put t K⟩ := by
  obtain ⟨h1, h2, h3, h4⟩ := hi
  have hf := h2 t f (by simp [h])
  have hnd := h3 t
  rw [h] at hnd
  have hk : ∀ g ∈ k, f.id ≠ g.id := by
    intro g hg e
    rw [List.map_cons, List.nodup_cons] at hnd
    exact hnd.1 (e ▸ List.mem_map_of_mem hg)
  have hKid : ∀ g ∈ K, ∃ f' ∈ s.th t, g.id = f'.id := by
    intro g hg
    rcases hK g hg with hg | hg
    · exact ⟨g, by simp [h, hg], rfl⟩
    · exact ⟨f, by simp [h], hg.1⟩
  refine ⟨?_, ?_, ?_, ?_⟩
  · intro e hm i hid
    rcases List.mem_append.1 hm with hm | hm
    · exact h1 e hm i hid
    · rw [he e hm] at hid; injection hid with hid; rw [← hid]; exact hf.1
  · intro u g hg
    by_cases hu : u = t
    · subst hu
      simp only [St.put, if_pos] at hg
      rcases hK g hg with hg | ⟨e, hg⟩
      · have := h2 u g (by simp [h, hg])
        refine ⟨this.1, frok_append this.2 (fun x hx => ?_)⟩
        rw [he x hx]; intro e; injection e with e; exact hk g hg e
      · exact ⟨by rw [e]; exact hf.1, hg⟩
    · simp only [St.put, if_neg hu] at hg
      have := h2 u g hg
      refine ⟨this.1, frok_append this.2 (fun x hx => ?_)⟩
      rw [he x hx]; intro e; injection e with e
      exact h4 t u (fun x => hu x.symm) f (by simp [h]) g hg e
  · intro u
    by_cases hu : u = t
    · subst hu; simp only [St.put, if_pos]; exact hnd.sublist hsub
    · simp only [St.put, if_neg hu]; exact h3 u
  · intro u v huv a ha b hb
    by_cases hu : u = t
    · subst hu
      have hv : v ≠ u := fun x => huv x.symm
      simp only [St.put, if_pos] at ha
      simp only [St.put, if_neg hv] at hb
      obtain ⟨f', hf', e⟩ := hKid a ha
      rw [e]; exact h4 u v huv f' hf' b hb
    · simp only [St.put, if_neg hu] at ha
      by_cases hv : v = t
      · subst hv
        simp only [St.put, if_pos] at hb
        obtain ⟨f', hf', e⟩ := hKid b hb
        rw [e]; exact h4 u v huv a ha f' hf'
      · simp only [St.put, if_neg hv] at hb
        exact h4 u v huv a ha b hb

theorem tinv_step {s s' : St X} {t : Nat} {tr evs : List (Ev X)} (hi : TInv tr s) (hs : Step isPrint o calm s t evs s') :
    TInv (tr ++ evs) s' ∧ ∀ e ∈ evs, Lawful tr e := by
  have top : ∀ {f k}, s.th t = f :: k → FrOk tr f := fun h => (hi.fr t _ (by simp [h])).2
  cases hs with
  | call op h =>
    obtain ⟨h1, h2, h3, h4⟩ := hi
    have hne : ∀ e ∈ tr, e.id ≠ some s.next := fun e he x => absurd (h1 e he _ x) (by omega)
    refine ⟨⟨?_, ?_, ?_, ?_⟩, by simpa [Lawful] using hne⟩
    · intro e hm i hid
      rcases List.mem_append.1 hm with hm | hm
      · exact Nat.lt_succ_of_lt (h1 e hm i hid)
      · rw [List.mem_singleton.1 hm] at hid; simp [Ev.id] at hid; subst hid; exact Nat.lt_succ_self _
    · intro u g hg
      have old : ∀ u, ∀ g ∈ s.th u, g.id < s.next + 1 ∧ FrOk (tr ++ [Ev.call s.next op]) g := fun u g hg => by
        have := h2 u g hg
        refine ⟨by omega, frok_append this.2 (fun x hx => ?_)⟩
        rw [List.mem_singleton.1 hx]; simp [Ev.id]; omega
      by_cases hu : u = t
      · subst hu
        simp only [St.put, if_pos] at hg
        rcases List.mem_cons.1 hg with rfl | hg
        · refine ⟨Nat.lt_succ_self _, by simp, fun e hm hid => ?_⟩
          rcases List.mem_append.1 hm with hm | hm
          · exact absurd hid (hne e hm)
          · exact List.mem_singleton.1 hm
        · exact old u g hg
      · simp only [St.put, if_neg hu] at hg; exact old u g hg
    · intro u
      by_cases hu : u = t
      · subst hu
        simp only [St.put, if_pos, List.map_cons, List.nodup_cons]
        refine ⟨fun hm => ?_, h3 u⟩
        obtain ⟨g, hg, e⟩ := List.mem_map.1 hm
        have := (h2 u g hg).1
        simp [Fr.id] at e; simp [Fr.id] at this; omega
      · simp only [St.put, if_neg hu]; exact h3 u
    · intro u v huv a ha b hb
      by_cases hu : u = t
      · subst hu
        have hv : v ≠ u := fun x => huv x.symm
        simp only [St.put, if_pos] at ha
        simp only [St.put, if_neg hv] at hb
        rcases List.mem_cons.1 ha with rfl | ha
        · have := (h2 v b hb).1
          show s.next ≠ _; omega
        · exact h4 u v huv a ha b hb
      · simp only [St.put, if_neg hu] at ha
        by_cases hv : v = t
        · subst hv
          simp only [St.put, if_pos] at hb
          rcases List.mem_cons.1 hb with rfl | hb
          · have := (h2 u a ha).1
            show _ ≠ s.next; omega
          · exact h4 u v huv a ha b hb
        · simp only [St.put, if_neg hv] at hb
          exact h4 u v huv a ha b hb
  | enter id op k h hl hop =>
    refine ⟨tinv_put hi h (by simp) (by simp [Fr.id]) ?_, by simp⟩
    intro g hg
    rcases List.mem_cons.1 hg with rfl | hg
    · exact .inr ⟨rfl, by simpa [FrOk] using top h⟩
    · exact .inl hg
  | enterRange id fs order k h hl ho =>
    refine ⟨tinv_put hi h (by simp) (by simp [Fr.id]) ?_, by simp⟩
    intro g hg
    rcases List.mem_cons.1 hg with rfl | hg
    · exact .inr ⟨rfl, by simpa [FrOk] using top h⟩
    · exact .inl hg
  | check id fs e rest acc ok k h hc =>
    refine ⟨tinv_put hi h (by simp) (by simp [Fr.id]) ?_, by simp⟩
    intro g hg
    rcases List.mem_cons.1 hg with rfl | hg
    · exact .inr ⟨rfl, by simpa [FrOk] using top h⟩
    · exact .inl hg
  | get id key rest acc k h =>
    have ht := top h
    refine ⟨tinv_put hi h (by simp [Ev.id, Fr.id]) (by simp [Fr.id]) ?_, by simpa [Lawful, FrOk] using ht⟩
    intro g hg
    rcases List.mem_cons.1 hg with rfl | hg
    · refine .inr ⟨rfl, ⟨_, by simp; exact .inr rfl⟩, fun r' hm => ?_⟩
      simp at hm; exact nomatch ht.2 _ hm rfl
    · exact .inl hg
  | upsert id key v rest acc k h =>
    have ht := top h
    refine ⟨tinv_put hi h (by simp [Ev.id, Fr.id]) (by simp [Fr.id]) ?_, by simpa [Lawful, FrOk] using ht⟩
    intro g hg
    rcases List.mem_cons.1 hg with rfl | hg
    · refine .inr ⟨rfl, ⟨_, by simp; exact .inr rfl⟩, fun r' hm => ?_⟩
      simp at hm; exact nomatch ht.2 _ hm rfl
    · exact .inl hg
  | delete id key rest acc k h =>
    have ht := top h
    refine ⟨tinv_put hi h (by simp [Ev.id, Fr.id]) (by simp [Fr.id]) ?_, by simpa [Lawful, FrOk] using ht⟩
    intro g hg
    rcases List.mem_cons.1 hg with rfl | hg
    · refine .inr ⟨rfl, ⟨_, by simp; exact .inr rfl⟩, fun r' hm => ?_⟩
      simp at hm; exact nomatch ht.2 _ hm rfl
    · exact .inl hg
  | fail id fs e rest acc x k h hc =>
    have ht := top h
    refine ⟨tinv_put hi h (by simp [Ev.id, Fr.id]) (by simp [Fr.id]) ?_, by simpa [Lawful, FrOk] using ht⟩
    intro g hg
    rcases List.mem_cons.1 hg with rfl | hg
    · refine .inr ⟨rfl, ⟨_, by simp; exact .inr rfl⟩, fun r' hm => ?_⟩
      simp at hm; exact nomatch ht.2 _ hm rfl
    · exact .inl hg
  | snap id fs acc k h =>
    have ht := top h
    refine ⟨tinv_put hi h (by simp [Ev.id, Fr.id]) (by simp [Fr.id]) ?_, by simpa [Lawful, FrOk] using ht⟩
    intro g hg
    rcases List.mem_cons.1 hg with rfl | hg
    · have hv : visits id (tr ++ [Ev.took id (.range fs) (.items acc)]) = [] := by
        rw [visits_append]
        have : visits id tr = [] := by
          refine List.filterMap_eq_nil_iff.2 fun e he => ?_
          cases e with
          | visit i k v =>
            by_cases hi : i = id
            · exact nomatch ht.2 _ he (by simp [Ev.id, hi])
            · simp [hi]
          | _ => rfl
        simp [this]; simp [visits]
      refine .inr ⟨rfl, fs, acc, by simp, by rw [hv]; rfl, by simp, fun b hm => ?_⟩
      simp at hm; exact nomatch ht.2 _ hm rfl
    · exact .inl hg
  | visit id cb e rest k h =>
    obtain ⟨fs, l, t1, t2, t3, t4⟩ := top h
    refine ⟨tinv_put hi h (by simp [Ev.id, Fr.id]) (by simp [Fr.id]) ?_, ?_⟩
    · intro g hg
      rcases List.mem_cons.1 hg with rfl | hg
      · have hv : visits id (tr ++ [Ev.visit id e.1 e.2]) = visits id tr ++ [e] := by simp [visits]
        refine .inr ⟨rfl, fs, l, by simp [t1], by rw [hv, t2]; simp, by rw [hv]; simp, fun b hm => ?_⟩
        simp at hm; exact t4 b hm
      · exact .inl hg
    · intro x hx
      rw [List.mem_singleton.1 hx]
      exact ⟨fs, l, rest, t1, t2, t4⟩
  | stop id rest k h =>
    obtain ⟨fs, l, t1, t2, t3, t4⟩ := top h
    refine ⟨tinv_put hi h (by simp [Ev.id, Fr.id]) (by simp) (fun g hg => .inl hg), ?_⟩
    intro x hx
    rw [List.mem_singleton.1 hx]
    exact ⟨fs, l, rest, t1, t2, (nomatch ·), fun _ => t3 rfl, t4⟩
  | finish id cb k h =>
    obtain ⟨fs, l, t1, t2, t3, t4⟩ := top h
    refine ⟨tinv_put hi h (by simp [Ev.id, Fr.id]) (by simp) (fun g hg => .inl hg), ?_⟩
    intro x hx
    rw [List.mem_singleton.1 hx]
    exact ⟨fs, l, [], t1, t2, fun _ => rfl, (nomatch ·), t4⟩
  | ret id r k h =>
    have ht := top h
    refine ⟨tinv_put hi h (by simp [Ev.id, Fr.id]) (by simp) (fun g hg => .inl hg), ?_⟩
    intro x hx
    rw [List.mem_singleton.1 hx]
    exact ht
  | edit r rec h hc =>
    obtain ⟨h1, h2, h3, h4⟩ := hi
    refine ⟨⟨?_, fun u g hg => ⟨(h2 u g hg).1, frok_append (h2 u g hg).2 (by simp [Ev.id])⟩, h3, h4⟩, by simp [Lawful]⟩
    intro e hm i hid
    rcases List.mem_append.1 hm with hm | hm
    · exact h1 e hm i hid
    · rw [List.mem_singleton.1 hm] at hid; simp [Ev.id] at hid

theorem step_one {s s' : St X} {t : Nat} {evs : List (Ev X)} (hs : Step isPrint o calm s t evs s') : evs.length ≤ 1 := by
  cases hs <;> simp

theorem tinv_exec {heap : Nat → List (Str × Node X)} {tr : List (Ev X)} {s : St X} (h : Exec isPrint o calm (init heap) tr s) :
    TInv tr s ∧ ∀ p e q, tr = p ++ e :: q → Lawful p e := by
  induction h with
  | nil => exact ⟨⟨by simp, by simp [init], by simp [init], by simp [init]⟩, by simp⟩
  | snoc h hs ih =>
    rename_i tr s s' t evs
    have hst := tinv_step ih.1 hs
    refine ⟨hst.1, fun p e q hq => ?_⟩
    have h1 := step_one hs
    match evs, h1, hst, hq with
    | [], _, _, hq => exact ih.2 p e q (by simpa using hq)
    | [x], _, hst, hq =>
      rcases List.eq_nil_or_concat q with rfl | ⟨q', y, rfl⟩
      · have := List.append_inj' hq rfl
        rw [← this.1]
        have hx := this.2; simp at hx
        exact hst.2 e (by simp [hx])
      · have hq' : tr ++ [x] = (p ++ e :: q') ++ [y] := by simpa using hq
        exact ih.2 p e q' (List.append_inj' hq' rfl).1
end

/-- C159: in any interleaving, whatever is edited: calls take effect between being made and returning, exactly once, and return what they
saw; a `Range` calls back with exactly the entries it saw. -/
theorem C159_order {X : Ext} (isPrint : Char → Bool) (o : Orders) (heap : Nat → List (Str × Node X)) (tr : List (Ev X)) (s : St X)
    (h : Exec isPrint o false (init heap) tr s) (p q : List (Ev X)) (e : Ev X) (he : tr = p ++ e :: q) : Lawful p e := (tinv_exec h).2 p e q he

/-- C159: a call that is made after another one returned takes effect after it. -/
theorem C159_realtime {X : Ext} (isPrint : Char → Bool) (o : Orders) (heap : Nat → List (Str × Node X)) (tr : List (Ev X)) (s : St X)
    (h : Exec isPrint o false (init heap) tr s) (p q : List (Ev X)) (a b : Nat) (r : Res) (op : Req X) (he : tr = p ++ .ret a r :: q) (hb : Ev.call b op ∈ q) :
    (∃ op', Ev.took a op' r ∈ p) ∧ ∀ op' r', Ev.took b op' r' ∉ p := by
  refine ⟨((tinv_exec h).2 p _ q he).1, fun op' r' hm => ?_⟩
  obtain ⟨q1, q2, rfl⟩ := List.append_of_mem hb
  exact (tinv_exec h).2 (p ++ .ret a r :: q1) (.call b op) q2 (by simp [he]) _ (List.mem_append_left _ hm) rfl

/-! ### nobody waits for ever -/

section
variable {X : Ext} {isPrint : Char → Bool} {o : Orders} {calm : Bool}

theorem Exec.trans {a b c : St X} {t1 t2 : List (Ev X)} (h1 : Exec isPrint o calm a t1 b) (h2 : Exec isPrint o calm b t2 c) : Exec isPrint o calm a (t1 ++ t2) c := by
  induction h2 with
  | nil => simpa using h1
  | snoc _ hs ih => rw [← List.append_assoc]; exact ih.snoc hs

/-- The goroutine inside comes out by itself, and nobody else moves. -/
theorem comes_out (t id : Nat) (op : Req X) (k : List (Fr X)) : ∀ (n : Nat) (s : St X) (rest acc : List (Str × Ref)), rest.length = n →
    s.th t = .inside id op rest acc :: k → ∃ tr s' r, Exec isPrint o calm s tr s' ∧ tr = [.took id op r] ∧ s'.lock = none ∧ ∀ u, u ≠ t → s'.th u = s.th u := by
  intro n
  induction n with
  | zero =>
    intro s rest acc hn h
    have hr : rest = [] := List.length_eq_zero_iff.1 hn
    subst hr
    have ho : ∀ (K : List (Fr X)) u, u ≠ t → s.put t K u = s.th u := fun K u hu => put_other s K hu
    cases op with
    | get key => exact ⟨_, _, _, .snoc .nil (.get s t id key [] acc k h), rfl, rfl, ho _⟩
    | upsert key v => exact ⟨_, _, _, .snoc .nil (.upsert s t id key v [] acc k h), rfl, rfl, ho _⟩
    | delete key => exact ⟨_, _, _, .snoc .nil (.delete s t id key [] acc k h), rfl, rfl, ho _⟩
    | range fs => exact ⟨_, _, _, .snoc .nil (.snap s t id fs acc k h), rfl, rfl, ho _⟩
  | succ n ih =>
    intro s rest acc hn h
    have ho : ∀ (K : List (Fr X)) u, u ≠ t → s.put t K u = s.th u := fun K u hu => put_other s K hu
    cases op with
    | get key => exact ⟨_, _, _, .snoc .nil (.get s t id key rest acc k h), rfl, rfl, ho _⟩
    | upsert key v => exact ⟨_, _, _, .snoc .nil (.upsert s t id key v rest acc k h), rfl, rfl, ho _⟩
    | delete key => exact ⟨_, _, _, .snoc .nil (.delete s t id key rest acc k h), rfl, rfl, ho _⟩
    | range fs =>
      cases rest with
      | nil => simp at hn
      | cons e rest =>
        cases hc : checkAll isPrint o (record s.heap e.2) fs with
        | error x => exact ⟨_, _, _, .snoc .nil (.fail s t id fs e rest acc x k h hc), rfl, rfl, ho _⟩
        | ok ok =>
          have hst : Step isPrint o calm s t [] _ := .check s t id fs e rest acc ok k h hc
          obtain ⟨tr, s', r, h1, h2, h3, h4⟩ := ih { s with th := s.put t (.inside id (.range fs) rest (if ok then acc ++ [e] else acc) :: k) }
            rest (if ok then acc ++ [e] else acc) (by simpa using hn) (put_self s t _)
          refine ⟨_, s', r, Exec.trans (.snoc .nil hst) h1, by simpa using h2, h3, fun u hu => ?_⟩
          rw [h4 u hu]; exact ho _ u hu
end

/-- C159: no deadlock. From every state that can be reached, a call that waits for the mutex can be served, whoever holds it, also if it
is made by a callback. -/
theorem C159_served {X : Ext} (isPrint : Char → Bool) (o : Orders) (calm : Bool) (heap : Nat → List (Str × Node X)) (tr : List (Ev X)) (s : St X)
    (h : Exec isPrint o calm (init heap) tr s) (t id : Nat) (op : Req X) (k : List (Fr X)) (ht : s.th t = .called id op :: k) :
    ∃ tr' s' r, Exec isPrint o calm s tr' s' ∧ Ev.took id op r ∈ tr' := by
  have hi := inv_exec (inv_init heap) h
  -- first the mutex gets free
  have hfree : ∃ tr' s', Exec isPrint o calm s tr' s' ∧ s'.lock = none ∧ s'.th t = .called id op :: k := by
    cases hl : s.lock with
    | none => exact ⟨[], s, .nil, hl, ht⟩
    | some u =>
      have hu := hi.shape u
      cases hk : s.th u with
      | nil => rw [hk] at hu; exact absurd hl hu
      | cons f K =>
        rw [hk] at hu
        cases f with
        | inside id' op' rest acc =>
          obtain ⟨tr', s', _, h1, _, h3, h4⟩ := comes_out (isPrint := isPrint) (o := o) (calm := calm) u id' op' K rest.length s rest acc rfl hk
          have hne : t ≠ u := by intro e; rw [e, hk] at ht; cases ht
          exact ⟨tr', s', h1, h3, by rw [h4 t hne]; exact ht⟩
        | _ => exact absurd hl hu.2
  obtain ⟨tr1, s1, h1, hl1, ht1⟩ := hfree
  -- then the call gets it
  have henter : ∃ s2 rest, Step isPrint o calm s1 t [] s2 ∧ s2.th t = .inside id op rest [] :: k := by
    cases op with
    | range fs => exact ⟨_, s1.data, .enterRange s1 t id fs s1.data k ht1 hl1 (List.Perm.refl _), put_self s1 t _⟩
    | get key => exact ⟨_, [], .enter s1 t id _ k ht1 hl1 (by simp), put_self s1 t _⟩
    | upsert key v => exact ⟨_, [], .enter s1 t id _ k ht1 hl1 (by simp), put_self s1 t _⟩
    | delete key => exact ⟨_, [], .enter s1 t id _ k ht1 hl1 (by simp), put_self s1 t _⟩
  obtain ⟨s2, rest, hst, ht2⟩ := henter
  obtain ⟨tr3, s3, r, h3, h4, _, _⟩ := comes_out (isPrint := isPrint) (o := o) (calm := calm) t id op k rest.length s2 rest [] rfl ht2
  exact ⟨_, s3, r, Exec.trans (h1.snoc hst) h3, by simp [h4]⟩

/-- C159: the mutex excludes: at most one goroutine is between `Lock` and `Unlock`. -/
theorem C159_excludes {X : Ext} (isPrint : Char → Bool) (o : Orders) (calm : Bool) (heap : Nat → List (Str × Node X)) (tr : List (Ev X)) (s : St X)
    (h : Exec isPrint o calm (init heap) tr s) (t u i j : Nat) (p q : Req X) (a b c d : List (Str × Ref))
    (ht : Fr.inside i p a b ∈ s.th t) (hu : Fr.inside j q c d ∈ s.th u) : t = u := by
  have hi := (inv_exec (inv_init heap) h).shape
  have key : ∀ t i p a b, Fr.inside i p a b ∈ s.th t → s.lock = some t := by
    intro t i p a b hm
    have := hi t
    cases hk : s.th t with
    | nil => rw [hk] at hm; cases hm
    | cons f k =>
      rw [hk] at hm this
      rcases List.mem_cons.1 hm with rfl | hm
      · exact this.2
      · exact (this.1 _ hm).elim
  have := (key t i p a b ht).symm.trans (key u j q c d hu)
  injection this

/-! ### a record edited during a `Range` -/

section
variable {X : Ext} (isPrint : Char → Bool) (o : Orders)

/-- Whether a record has a field `f`, asked for by a filter (a missing field counts as nil). -/
def hasF : Filter X := ⟨lit "f", lit "NEQ", some .nil⟩

theorem hasF_empty : hasF.check (X := X) isPrint o [] = .ok false := by
  simp [hasF, Filter.check, lookupKey, lit, Node.goString]

theorem hasF_full : hasF.check (X := X) isPrint o [(lit "f", .bool true)] = .ok true := by
  simp [hasF, Filter.check, lookupKey, lit, Node.goString]

/-- Records 1 and 2, of which only record 1 has the field. -/
def heapM (X : Ext) : Nat → List (Str × Node X)
  | 1 => [(lit "f", .bool true)]
  | _ => []

/-- The records as they are at the moments of an execution. -/
def moments (heap : Nat → List (Str × Node X)) : List (Ev X) → List (Nat → List (Str × Node X))
  | [] => [heap]
  | .edited r rec :: tr => heap :: moments (fun q => if q = r then rec else heap q) tr
  | _ :: tr => heap :: moments heap tr

/-- What one event does to the records. -/
def changed (heap : Nat → List (Str × Node X)) : Ev X → Nat → List (Str × Node X)
  | .edited r rec => fun q => if q = r then rec else heap q
  | _ => heap

theorem moments_fold : ∀ (tr : List (Ev X)) (heap : Nat → List (Str × Node X)), (moments heap tr).getLast? = some (tr.foldl changed heap)
  | [], _ => rfl
  | e :: tr, heap => by
    have h := moments_fold tr (changed heap e)
    cases e <;> (rw [List.foldl_cons, ← h]; simp only [moments, changed] at h ⊢; rw [List.getLast?_cons, h]; rfl)

/-- The last moment of every execution, and so of all that it begins with, is that of the state. -/
theorem moments_last (calm : Bool) (s0 s : St X) (tr : List (Ev X)) (h : Exec isPrint o calm s0 tr s) : (moments s0.heap tr).getLast? = some s.heap := by
  rw [moments_fold]
  congr 1
  induction h with
  | nil => rfl
  | snoc h hs ih =>
    rw [List.foldl_append, ih]
    cases hs <;> rfl

/-- C159, violated: a `Range` during which another goroutine moves the field from one record to the other sees both, although at no
moment of the execution both matched. -/
theorem C159_moment_violated : ∃ (tr : List (Ev X)) (s : St X) (id : Nat), Exec isPrint o false (init (heapM X)) tr s ∧
    Ev.took id (.range [hasF]) (.items [(lit "a", some 1), (lit "b", some 2)]) ∈ tr ∧
    ∀ heap ∈ moments (heapM X) tr, ¬(matchesAll isPrint o [hasF] (record heap (some 1)) ∧ matchesAll isPrint o [hasF] (record heap (some 2))) := by
  have e1 := Exec.snoc (isPrint := isPrint) (o := o) (calm := false) .nil (.call (init (heapM X)) 0 (.upsert (lit "a") (some 1)) rfl)
  have e2 := e1.snoc (.enter _ 0 0 _ [] rfl rfl (by simp))
  have e3 := e2.snoc (.upsert _ 0 0 _ _ [] [] [] rfl)
  have e4 := e3.snoc (.ret _ 0 0 _ [] rfl)
  have e5 := e4.snoc (.call _ 0 (.upsert (lit "b") (some 2)) rfl)
  have e6 := e5.snoc (.enter _ 0 1 _ [] rfl rfl (by simp))
  have e7 := e6.snoc (.upsert _ 0 1 _ _ [] [] [] rfl)
  have e8 := e7.snoc (.ret _ 0 1 _ [] rfl)
  have e9 := e8.snoc (.call _ 0 (.range [hasF]) rfl)
  have e10 := e9.snoc (.enterRange _ 0 2 _ [(lit "a", some 1), (lit "b", some 2)] [] rfl rfl (List.Perm.refl _))
  have e11 := e10.snoc (.check _ 0 2 _ _ _ _ true [] rfl ((checkAll_true isPrint o _ _).2 (fun f hf => by
    rw [List.mem_singleton.1 hf]; exact hasF_full isPrint o)))
  have e12 := e11.snoc (.edit _ 1 1 [] rfl (nomatch ·))
  have e13 := e12.snoc (.edit _ 1 2 [(lit "f", .bool true)] rfl (nomatch ·))
  have e14 := e13.snoc (.check _ 0 2 _ _ _ _ true [] rfl ((checkAll_true isPrint o _ _).2 (fun f hf => by
    rw [List.mem_singleton.1 hf]; exact hasF_full isPrint o)))
  have e15 := e14.snoc (.snap _ 0 2 _ _ [] rfl)
  refine ⟨_, _, 2, e15, by simp, ?_⟩
  have no : ¬matchesAll isPrint o [hasF (X := X)] [] := fun h => by
    have := h hasF (by simp)
    rw [hasF_empty] at this; cases this
  simp [moments, init, heapM, record, no]

/-- Two goroutines: one ranges over a store with one matching record, and its callback deletes that record through the same store; the
other reads it in between. -/
example : ∃ tr s, Exec isPrint o true (init (heapM X)) tr s ∧ tr =
    [.call 0 (.upsert (lit "a") (some 1)), .took 0 (.upsert (lit "a") (some 1)) .unit, .ret 0 .unit,
     .call 1 (.range [hasF]), .took 1 (.range [hasF]) (.items [(lit "a", some 1)]), .visit 1 (lit "a") (some 1),
     .call 2 (.delete (lit "a")), .call 3 (.get (lit "a")), .took 3 (.get (lit "a")) (.ref (some 1)), .took 2 (.delete (lit "a")) .unit,
     .ret 2 .unit, .ended 1 true, .ret 3 (.ref (some 1))] ∧ s.data = [] ∧ s.lock = none := by
  have e1 := Exec.snoc (isPrint := isPrint) (o := o) (calm := true) .nil (.call (init (heapM X)) 0 (.upsert (lit "a") (some 1)) rfl)
  have e2 := e1.snoc (.enter _ 0 0 _ [] rfl rfl (by simp))
  have e3 := e2.snoc (.upsert _ 0 0 _ _ [] [] [] rfl)
  have e4 := e3.snoc (.ret _ 0 0 _ [] rfl)
  have e5 := e4.snoc (.call _ 0 (.range [hasF]) rfl)
  have e6 := e5.snoc (.enterRange _ 0 1 _ [(lit "a", some 1)] [] rfl rfl (List.Perm.refl _))
  have e7 := e6.snoc (.check _ 0 1 _ _ _ _ true [] rfl ((checkAll_true isPrint o _ _).2 (fun f hf => by
    rw [List.mem_singleton.1 hf]; exact hasF_full isPrint o)))
  have e8 := e7.snoc (.snap _ 0 1 _ _ [] rfl)
  have e9 := e8.snoc (.visit _ 0 1 _ _ _ [] rfl)
  have e10 := e9.snoc (.call _ 0 (.delete (lit "a")) rfl)
  have e11 := e10.snoc (.call _ 1 (.get (lit "a")) rfl)
  have e12 := e11.snoc (.enter _ 1 3 _ [] rfl rfl (by simp))
  have e13 := e12.snoc (.get _ 1 3 _ [] [] [] rfl)
  have e14 := e13.snoc (.enter _ 0 2 _ _ rfl rfl (by simp))
  have e15 := e14.snoc (.delete _ 0 2 _ [] [] _ rfl)
  have e16 := e15.snoc (.ret _ 0 2 _ _ rfl)
  have e17 := e16.snoc (.finish _ 0 1 _ [] rfl)
  have e18 := e17.snoc (.ret _ 1 3 _ [] rfl)
  exact ⟨_, _, e18, by simp [init, insertKey, lookupKey], by simp [init, insertKey], rfl⟩
end

end Verif.Storage.Conc

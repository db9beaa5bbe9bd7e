import Verif.Base
/-!
# Who waits for whom in a cache (utils/caches)

`LRU.Get` and `memCache.Get` call the miss function while they hold the mutex of the cache (lru.go L62-75, mem.go L29-35); `RequestCache.Request` calls it while it holds the mutex of the
entry only (request.go L37-57). A miss function may itself ask the cache for other keys. Which mutex a key needs is a function `grp`: a constant for the first two, the key itself for the
third. Results and times are left out: whether a call finds what it needs or has to fetch it is decided by the schedule.
-/
set_option autoImplicit false
namespace Verif.Caches.Wait

variable {K G : Type}

/-- The keys the miss function asks for, one after the other, and the mutex of a key; whether entries stay for ever (lru.go L13, mem.go L11) or can be replaced (request.go L25-27). -/
structure Design (K G : Type) where
  plan : K → List K
  grp : K → G
  fixed : Bool

/-- A call: before the entry is found (request.go L37), before its mutex is locked (L43), in the miss function with the keys it is still going to ask for (L57). lru.go L62, L75; mem.go L29, L35. -/
inductive Frame (K : Type) where
  | want (k : K)
  | wait (k : K) (p : Nat)
  | fetch (k : K) (p : Nat) (todo : List K)
deriving DecidableEq

/-- The key of a call. -/
def Frame.key : Frame K → K
  | .want k | .wait k _ | .fetch k _ _ => k

/-- The calls of every goroutine, the inner ones first; the goroutine that holds a mutex; the entry that is in the cache; a ghost: what the entry was made for. request.go L10-20. -/
structure St (K G : Type) where
  stacks : List (List (Frame K))
  owner : Nat → Option Nat
  index : G → Option Nat
  made : List G

/-- Goroutine `t` calls, finds the entry, finds a result there, begins to fetch, asks for another key from the miss function, returns from it, panics in it; an entry is evicted or invalidated. -/
inductive Act (K G : Type) where
  | call (t : Nat) (k : K)
  | lookup (t : Nat)
  | hit (t : Nat)
  | lock (t : Nat)
  | ask (t : Nat)
  | finish (t : Nat)
  | crash (t : Nat)
  | evict (g : G)

variable [DecidableEq G]

/-- One step. request.go L35-71, lru.go L61-98, mem.go L28-41. A panic unlocks by `defer` (request.go L44, lru.go L63, mem.go L30) and ends all calls of its goroutine. -/
def step (D : Design K G) (s : St K G) : Act K G → Option (St K G)
  | .call t k => match s.stacks[t]? with
    | some [] => some { s with stacks := s.stacks.set t [.want k] }
    | _ => none
  | .lookup t => match s.stacks[t]? with
    | some (.want k :: l) => match s.index (D.grp k) with
      | some p => some { s with stacks := s.stacks.set t (.wait k p :: l) }
      | none => some { s with stacks := s.stacks.set t (.wait k s.made.length :: l), index := fun g => if g = D.grp k then some s.made.length else s.index g, made := s.made ++ [D.grp k] }
    | _ => none
  | .hit t => match s.stacks[t]? with
    | some (.wait _ p :: l) => if s.owner p = none then some { s with stacks := s.stacks.set t l } else none
    | _ => none
  | .lock t => match s.stacks[t]? with
    | some (.wait k p :: l) => if s.owner p = none then some { s with stacks := s.stacks.set t (.fetch k p (D.plan k) :: l), owner := fun q => if q = p then some t else s.owner q } else none
    | _ => none
  | .ask t => match s.stacks[t]? with
    | some (.fetch k p (d :: todo) :: l) => some { s with stacks := s.stacks.set t (.want d :: .fetch k p todo :: l) }
    | _ => none
  | .finish t => match s.stacks[t]? with
    | some (.fetch _ p [] :: l) => some { s with stacks := s.stacks.set t l, owner := fun q => if q = p then none else s.owner q }
    | _ => none
  | .crash t => match s.stacks[t]? with
    | some (.fetch _ _ _ :: _) => some { s with stacks := s.stacks.set t [], owner := fun q => if s.owner q = some t then none else s.owner q }
    | _ => none
  | .evict g => if D.fixed then none else some { s with index := fun g' => if g' = g then none else s.index g' }

/-- No calls, nothing in the cache. -/
def start (n : Nat) : St K G := { stacks := List.replicate n [], owner := fun _ => none, index := fun _ => none, made := [] }

/-- Steps one after the other, if all of them are possible. -/
def run (D : Design K G) : St K G → List (Act K G) → Option (St K G)
  | s, [] => some s
  | s, a :: as => (step D s a).bind fun s' => run D s' as

/-- The steps that belong to a call which was begun. -/
def Act.works : Act K G → Bool
  | .call _ _ | .evict _ => false
  | _ => true

/-- Nothing can go on. -/
def Stuck (D : Design K G) (s : St K G) : Prop := ∀ a : Act K G, a.works = true → step D s a = none

/-- No call is under way. -/
def Idle (s : St K G) : Prop := ∀ l ∈ s.stacks, l = []

/-- Misses ask only for keys of a lower rank of mutex: no circle of goroutines can wait for each other. -/
def Ranked (D : Design K G) (rank : G → Nat) : Prop := ∀ k, ∀ d ∈ D.plan k, rank (D.grp d) < rank (D.grp k)

/-! ### the invariant -/

/-- Frames below the first are fetches, and ranks fall from the outer to the inner calls. -/
def Falls (D : Design K G) (rank : G → Nat) : List (Frame K) → Prop
  | [] => True
  | [f] => ∀ k p todo, f = .fetch k p todo → ∀ d ∈ todo, rank (D.grp d) < rank (D.grp k)
  | f :: g :: l => (∀ k p todo, f = .fetch k p todo → ∀ d ∈ todo, rank (D.grp d) < rank (D.grp k)) ∧ (∃ k p todo, g = .fetch k p todo) ∧
      rank (D.grp f.key) < rank (D.grp g.key) ∧ Falls D rank (g :: l)

/-- Mutexes are held by those who fetch, and belong to what the entry was made for. -/
structure Inv (D : Design K G) (rank : G → Nat) (s : St K G) : Prop where
  falls : ∀ l ∈ s.stacks, Falls D rank l
  held : ∀ p t, s.owner p = some t → ∃ l, s.stacks[t]? = some l ∧ ∃ k todo, Frame.fetch k p todo ∈ l
  own : ∀ t l k p todo, s.stacks[t]? = some l → Frame.fetch k p todo ∈ l → s.owner p = some t
  wmade : ∀ l ∈ s.stacks, ∀ k p, Frame.wait k p ∈ l → s.made[p]? = some (D.grp k)
  fmade : ∀ l ∈ s.stacks, ∀ k p todo, Frame.fetch k p todo ∈ l → s.made[p]? = some (D.grp k)
  imade : ∀ g p, s.index g = some p → s.made[p]? = some g

theorem inv_start (D : Design K G) (rank : G → Nat) (n : Nat) : Inv D rank (start n) := by
  have e : ∀ l ∈ (start n : St K G).stacks, l = [] := fun l hl => (List.mem_replicate.1 hl).2
  constructor
  · intro l hl; rw [e l hl]; trivial
  · intro p t h; cases h
  · intro t l k p todo h hm; rw [e l (List.mem_of_getElem? h)] at hm; cases hm
  · intro l hl k p hm; rw [e l hl] at hm; cases hm
  · intro l hl k p todo hm; rw [e l hl] at hm; cases hm
  · intro g p h; cases h

omit [DecidableEq G] in
theorem falls_tail (D : Design K G) (rank : G → Nat) (f : Frame K) (l : List (Frame K)) (h : Falls D rank (f :: l)) : Falls D rank l := by
  cases l with
  | nil => trivial
  | cons g l => exact h.2.2.2

omit [DecidableEq G] in
/-- Replacing the first frame by another of the same key. -/
theorem falls_swap (D : Design K G) (rank : G → Nat) (f f' : Frame K) (l : List (Frame K)) (h : Falls D rank (f :: l)) (hk : f'.key = f.key)
    (ht : ∀ k p todo, f' = .fetch k p todo → ∀ d ∈ todo, rank (D.grp d) < rank (D.grp k)) : Falls D rank (f' :: l) := by
  cases l with
  | nil => exact ht
  | cons g l => exact ⟨ht, h.2.1, by rw [hk]; exact h.2.2.1, h.2.2.2⟩

omit [DecidableEq G] in
/-- The rank of an inner call is below that of any outer one. -/
theorem falls_lt (D : Design K G) (rank : G → Nat) : ∀ (l : List (Frame K)) (f g : Frame K), Falls D rank (f :: l) → g ∈ l → rank (D.grp f.key) < rank (D.grp g.key)
  | [], f, g, _, hm => by cases hm
  | h :: l, f, g, hf, hm => by
    cases hm with
    | head => exact hf.2.2.1
    | tail _ hm => exact Nat.lt_trans hf.2.2.1 (falls_lt D rank l h g hf.2.2.2 hm)

theorem getElem?_set_cases {α : Type} (l : List α) (t u : Nat) (x y : α) (h : (l.set t x)[u]? = some y) : (u = t ∧ y = x) ∨ (u ≠ t ∧ l[u]? = some y) := by
  rw [List.getElem?_set] at h
  split at h
  · rename_i e
    split at h
    · exact .inl ⟨e.symm, by simpa using h.symm⟩
    · cases h
  · rename_i e; exact .inr ⟨fun k => e k.symm, h⟩

theorem mem_set_cases {α : Type} (l : List α) (t : Nat) (x y : α) (h : y ∈ l.set t x) : y = x ∨ y ∈ l := by
  rcases List.mem_or_eq_of_mem_set h with h | h
  · exact .inr h
  · exact .inl h

theorem get_set_self {α : Type} (l : List α) (t : Nat) (x y : α) (h : l[t]? = some y) : (l.set t x)[t]? = some x := by
  obtain ⟨h', -⟩ := List.getElem?_eq_some_iff.1 h
  simp [h']

theorem inv_step (D : Design K G) (rank : G → Nat) (hr : Ranked D rank) (s s' : St K G) (a : Act K G) (hi : Inv D rank s) (hs : step D s a = some s') : Inv D rank s' := by
  obtain ⟨h1, h2, h3, h4, h5, h6⟩ := hi
  cases a with
  | call t k =>
    simp only [step] at hs
    split at hs <;> simp only [Option.some.injEq, reduceCtorEq] at hs
    rename_i ht
    subst hs
    constructor <;> dsimp only
    · intro l hl
      rcases mem_set_cases _ _ _ _ hl with rfl | hl
      · intro _ _ _ e; cases e
      · exact h1 l hl
    · intro p u ho
      obtain ⟨l, hl, k', todo, hm⟩ := h2 p u ho
      refine ⟨l, ?_, k', todo, hm⟩
      by_cases e : u = t
      · subst e; rw [ht] at hl; cases hl; cases hm
      · rw [List.getElem?_set_ne (fun h => e h.symm)]; exact hl
    · intro u l k' p todo hl hm
      rcases getElem?_set_cases _ _ _ _ _ hl with ⟨-, rfl⟩ | ⟨-, hl⟩
      · simp at hm
      · exact h3 u l k' p todo hl hm
    · intro l hl k' p hm
      rcases mem_set_cases _ _ _ _ hl with rfl | hl
      · simp at hm
      · exact h4 l hl k' p hm
    · intro l hl k' p todo hm
      rcases mem_set_cases _ _ _ _ hl with rfl | hl
      · simp at hm
      · exact h5 l hl k' p todo hm
    · exact h6
  | lookup t =>
    simp only [step] at hs
    split at hs <;> try (cases hs; done)
    rename_i k l ht
    have hmem := List.mem_of_getElem? ht
    have key : ∀ (p : Nat) (made : List G), (∀ (q : Nat) (g : G), s.made[q]? = some g → made[q]? = some g) → made[p]? = some (D.grp k) → ∀ idx : G → Option Nat,
        (∀ g q, idx g = some q → made[q]? = some g) → Inv D rank { s with stacks := s.stacks.set t (.wait k p :: l), index := idx, made := made } := by
      intro p made hmono hp idx hidx
      constructor <;> dsimp only
      · intro l' hl
        rcases mem_set_cases _ _ _ _ hl with rfl | hl
        · exact falls_swap D rank _ _ _ (h1 _ hmem) rfl (by intro _ _ _ e; cases e)
        · exact h1 _ hl
      · intro q u ho
        obtain ⟨l', hl, k', todo, hm⟩ := h2 q u ho
        by_cases e : u = t
        · subst e
          rw [ht] at hl; cases hl
          refine ⟨_, get_set_self _ _ _ _ ht, k', todo, ?_⟩
          simpa using hm
        · exact ⟨l', by rw [List.getElem?_set_ne (fun h => e h.symm)]; exact hl, k', todo, hm⟩
      · intro u l' k' q todo hl hm
        rcases getElem?_set_cases _ _ _ _ _ hl with ⟨rfl, rfl⟩ | ⟨-, hl⟩
        · exact h3 u _ k' q todo ht (by simpa using hm)
        · exact h3 u l' k' q todo hl hm
      · intro l' hl k' q hm
        rcases mem_set_cases _ _ _ _ hl with rfl | hl
        · rcases List.mem_cons.1 hm with e | hm
          · cases e; exact hp
          · exact hmono _ _ (h4 _ hmem k' q (List.mem_cons_of_mem _ hm))
        · exact hmono _ _ (h4 l' hl k' q hm)
      · intro l' hl k' q todo hm
        rcases mem_set_cases _ _ _ _ hl with rfl | hl
        · exact hmono _ _ (h5 _ hmem k' q todo (by simpa using hm))
        · exact hmono _ _ (h5 l' hl k' q todo hm)
      · exact hidx
    split at hs <;> cases hs
    · rename_i p hp
      exact key p s.made (fun _ _ h => h) (h6 _ _ hp) s.index h6
    · have hmono : ∀ (q : Nat) (g : G), s.made[q]? = some g → (s.made ++ [D.grp k])[q]? = some g := by
        intro q g h
        obtain ⟨h', -⟩ := List.getElem?_eq_some_iff.1 h
        rw [List.getElem?_append_left h']; exact h
      refine key s.made.length _ hmono (by simp) _ ?_
      intro g q h
      split at h
      · rename_i e; cases h; rw [e]; simp
      · exact hmono _ _ (h6 _ _ h)
  | hit t =>
    simp only [step] at hs
    split at hs <;> try (cases hs; done)
    rename_i k p l ht
    have hmem := List.mem_of_getElem? ht
    split at hs <;> cases hs
    constructor <;> dsimp only
    · intro l' hl
      rcases mem_set_cases _ _ _ _ hl with rfl | hl
      · exact falls_tail D rank _ _ (h1 _ hmem)
      · exact h1 _ hl
    · intro q u ho
      obtain ⟨l', hl, k', todo, hm⟩ := h2 q u ho
      by_cases e : u = t
      · subst e
        rw [ht] at hl; cases hl
        exact ⟨_, get_set_self _ _ _ _ ht, k', todo, by simpa using hm⟩
      · exact ⟨l', by rw [List.getElem?_set_ne (fun h => e h.symm)]; exact hl, k', todo, hm⟩
    · intro u l' k' q todo hl hm
      rcases getElem?_set_cases _ _ _ _ _ hl with ⟨rfl, rfl⟩ | ⟨-, hl⟩
      · exact h3 u _ k' q todo ht (by simpa using hm)
      · exact h3 u l' k' q todo hl hm
    · intro l' hl k' q hm
      rcases mem_set_cases _ _ _ _ hl with rfl | hl
      · exact h4 _ hmem k' q (List.mem_cons_of_mem _ hm)
      · exact h4 l' hl k' q hm
    · intro l' hl k' q todo hm
      rcases mem_set_cases _ _ _ _ hl with rfl | hl
      · exact h5 _ hmem k' q todo (List.mem_cons_of_mem _ hm)
      · exact h5 l' hl k' q todo hm
    · exact h6
  | lock t =>
    simp only [step] at hs
    split at hs <;> try (cases hs; done)
    rename_i k p l ht
    have hmem := List.mem_of_getElem? ht
    split at hs <;> cases hs
    rename_i hfree
    constructor <;> dsimp only
    · intro l' hl
      rcases mem_set_cases _ _ _ _ hl with rfl | hl
      · exact falls_swap D rank _ _ _ (h1 _ hmem) rfl (by intro _ _ _ e; cases e; exact hr k)
      · exact h1 _ hl
    · intro q u ho
      split at ho
      · rename_i e; cases ho; subst e
        exact ⟨_, get_set_self _ _ _ _ ht, k, _, List.mem_cons_self ..⟩
      · obtain ⟨l', hl, k', todo, hm⟩ := h2 q u ho
        by_cases e : u = t
        · subst e
          rw [ht] at hl; cases hl
          refine ⟨_, get_set_self _ _ _ _ ht, k', todo, ?_⟩
          exact List.mem_cons_of_mem _ (by simpa using hm)
        · exact ⟨l', by rw [List.getElem?_set_ne (fun h => e h.symm)]; exact hl, k', todo, hm⟩
    · intro u l' k' q todo hl hm
      rcases getElem?_set_cases _ _ _ _ _ hl with ⟨rfl, rfl⟩ | ⟨-, hl⟩
      · rcases List.mem_cons.1 hm with e | hm
        · cases e; simp
        · have := h3 u _ k' q todo ht (List.mem_cons_of_mem _ hm)
          rw [if_neg (by rintro rfl; rw [hfree] at this; cases this)]
          exact this
      · have := h3 u l' k' q todo hl hm
        rw [if_neg (by rintro rfl; rw [hfree] at this; cases this)]
        exact this
    · intro l' hl k' q hm
      rcases mem_set_cases _ _ _ _ hl with rfl | hl
      · exact h4 _ hmem k' q (List.mem_cons_of_mem _ (by simpa using hm))
      · exact h4 l' hl k' q hm
    · intro l' hl k' q todo hm
      rcases mem_set_cases _ _ _ _ hl with rfl | hl
      · rcases List.mem_cons.1 hm with e | hm
        · cases e; exact h4 _ hmem k p (List.mem_cons_self ..)
        · exact h5 _ hmem k' q todo (List.mem_cons_of_mem _ hm)
      · exact h5 l' hl k' q todo hm
    · exact h6
  | ask t =>
    simp only [step] at hs
    split at hs <;> try (cases hs; done)
    rename_i k p d todo l ht
    have hmem := List.mem_of_getElem? ht
    cases hs
    have hf := h1 _ hmem
    have hd : ∀ d' ∈ d :: todo, rank (D.grp d') < rank (D.grp k) := by
      cases l with
      | nil => exact hf k p _ rfl
      | cons g l => exact hf.1 k p _ rfl
    constructor <;> dsimp only
    · intro l' hl
      rcases mem_set_cases _ _ _ _ hl with rfl | hl
      · refine ⟨(by intro _ _ _ e; cases e), ⟨k, p, todo, rfl⟩, hd d (List.mem_cons_self ..), ?_⟩
        exact falls_swap D rank _ _ _ hf rfl (by intro _ _ _ e; cases e; exact fun d' h => hd d' (List.mem_cons_of_mem _ h))
      · exact h1 _ hl
    · intro q u ho
      obtain ⟨l', hl, k', todo', hm⟩ := h2 q u ho
      by_cases e : u = t
      · subst e
        rw [ht] at hl; cases hl
        rcases List.mem_cons.1 hm with e | hm
        · cases e; exact ⟨_, get_set_self _ _ _ _ ht, k, todo, by simp⟩
        · exact ⟨_, get_set_self _ _ _ _ ht, k', todo', by simp [hm]⟩
      · exact ⟨l', by rw [List.getElem?_set_ne (fun h => e h.symm)]; exact hl, k', todo', hm⟩
    · intro u l' k' q todo' hl hm
      rcases getElem?_set_cases _ _ _ _ _ hl with ⟨rfl, rfl⟩ | ⟨-, hl⟩
      · simp only [List.mem_cons, reduceCtorEq, false_or] at hm
        rcases hm with e | hm
        · cases e; exact h3 u _ k p _ ht (List.mem_cons_self ..)
        · exact h3 u _ k' q todo' ht (List.mem_cons_of_mem _ hm)
      · exact h3 u l' k' q todo' hl hm
    · intro l' hl k' q hm
      rcases mem_set_cases _ _ _ _ hl with rfl | hl
      · simp only [List.mem_cons, reduceCtorEq, false_or] at hm
        exact h4 _ hmem k' q (List.mem_cons_of_mem _ hm)
      · exact h4 l' hl k' q hm
    · intro l' hl k' q todo' hm
      rcases mem_set_cases _ _ _ _ hl with rfl | hl
      · simp only [List.mem_cons, reduceCtorEq, false_or] at hm
        rcases hm with e | hm
        · cases e; exact h5 _ hmem k p _ (List.mem_cons_self ..)
        · exact h5 _ hmem k' q todo' (List.mem_cons_of_mem _ hm)
      · exact h5 l' hl k' q todo' hm
    · exact h6
  | finish t =>
    simp only [step] at hs
    split at hs <;> try (cases hs; done)
    rename_i k p l ht
    have hmem := List.mem_of_getElem? ht
    cases hs
    have hown := h3 t _ k p [] ht (List.mem_cons_self ..)
    have hlt := fun g => falls_lt D rank l (.fetch k p []) g (h1 _ hmem)
    -- no outer call holds the same mutex: its key would have the same rank
    have hout : ∀ k' todo, Frame.fetch k' p todo ∉ l := by
      intro k' todo hm
      have a := h5 _ hmem k p [] (List.mem_cons_self ..)
      have b := h5 _ hmem k' p todo (List.mem_cons_of_mem _ hm)
      have c := hlt _ hm
      rw [a] at b
      simp only [Frame.key] at c
      rw [Option.some.inj b] at c
      exact Nat.lt_irrefl _ c
    constructor <;> dsimp only
    · intro l' hl
      rcases mem_set_cases _ _ _ _ hl with rfl | hl
      · exact falls_tail D rank _ _ (h1 _ hmem)
      · exact h1 _ hl
    · intro q u ho
      split at ho
      · cases ho
      · rename_i hq
        obtain ⟨l', hl, k', todo', hm⟩ := h2 q u ho
        by_cases e : u = t
        · subst e
          rw [ht] at hl; cases hl
          rcases List.mem_cons.1 hm with e | hm
          · cases e; exact absurd rfl hq
          · exact ⟨_, get_set_self _ _ _ _ ht, k', todo', hm⟩
        · exact ⟨l', by rw [List.getElem?_set_ne (fun h => e h.symm)]; exact hl, k', todo', hm⟩
    · intro u l' k' q todo' hl hm
      rcases getElem?_set_cases _ _ _ _ _ hl with ⟨rfl, rfl⟩ | ⟨hne, hl⟩
      · rw [if_neg (by rintro rfl; exact hout _ _ hm)]
        exact h3 u _ k' q todo' ht (List.mem_cons_of_mem _ hm)
      · have := h3 u l' k' q todo' hl hm
        rw [if_neg (by rintro rfl; rw [hown] at this; cases this; exact hne rfl)]
        exact this
    · intro l' hl k' q hm
      rcases mem_set_cases _ _ _ _ hl with rfl | hl
      · exact h4 _ hmem k' q (List.mem_cons_of_mem _ hm)
      · exact h4 l' hl k' q hm
    · intro l' hl k' q todo' hm
      rcases mem_set_cases _ _ _ _ hl with rfl | hl
      · exact h5 _ hmem k' q todo' (List.mem_cons_of_mem _ hm)
      · exact h5 l' hl k' q todo' hm
    · exact h6
  | crash t =>
    simp only [step] at hs
    split at hs <;> try (cases hs; done)
    rename_i k p todo l ht
    cases hs
    constructor <;> dsimp only
    · intro l' hl
      rcases mem_set_cases _ _ _ _ hl with rfl | hl
      · trivial
      · exact h1 _ hl
    · intro q u ho
      split at ho
      · cases ho
      · rename_i hq
        obtain ⟨l', hl, k', todo', hm⟩ := h2 q u ho
        have e : u ≠ t := by rintro rfl; exact hq ho
        exact ⟨l', by rw [List.getElem?_set_ne (fun h => e h.symm)]; exact hl, k', todo', hm⟩
    · intro u l' k' q todo' hl hm
      rcases getElem?_set_cases _ _ _ _ _ hl with ⟨rfl, rfl⟩ | ⟨hne, hl⟩
      · cases hm
      · have := h3 u l' k' q todo' hl hm
        rw [if_neg (by rw [this]; intro e; cases e; exact hne rfl)]
        exact this
    · intro l' hl k' q hm
      rcases mem_set_cases _ _ _ _ hl with rfl | hl
      · cases hm
      · exact h4 l' hl k' q hm
    · intro l' hl k' q todo' hm
      rcases mem_set_cases _ _ _ _ hl with rfl | hl
      · cases hm
      · exact h5 l' hl k' q todo' hm
    · exact h6
  | evict g =>
    simp only [step] at hs
    split at hs <;> cases hs
    refine ⟨h1, h2, h3, h4, h5, ?_⟩
    dsimp only
    intro g' p h
    split at h
    · cases h
    · exact h6 _ _ h

theorem inv_run (D : Design K G) (rank : G → Nat) (hr : Ranked D rank) : ∀ (as : List (Act K G)) (s s' : St K G), Inv D rank s → run D s as = some s' → Inv D rank s'
  | [], s, s', hi, h => by cases h; exact hi
  | a :: as, s, s', hi, h => by
    obtain ⟨s1, h1, h2⟩ := Option.bind_eq_some_iff.1 h
    exact inv_run D rank hr as s1 s' (inv_step D rank hr s s1 a hi h1) h2

/-! ### somebody can go on -/

theorem progress (D : Design K G) (rank : G → Nat) (s : St K G) (hi : Inv D rank s) : ∀ (n t : Nat) (f : Frame K) (l : List (Frame K)), s.stacks[t]? = some (f :: l) → rank (D.grp f.key) = n →
    ∃ a : Act K G, a.works = true ∧ (∀ u, a ≠ .crash u) ∧ (step D s a).isSome := by
  intro n
  induction n using Nat.strongRecOn with
  | ind n ih =>
    intro t f l ht hn
    cases f with
    | want k =>
      refine ⟨.lookup t, rfl, (by intro u e; cases e), ?_⟩
      simp only [step, ht]
      split <;> rfl
    | fetch k p todo =>
      cases todo with
      | nil => exact ⟨.finish t, rfl, (by intro u e; cases e), by simp [step, ht]⟩
      | cons d todo => exact ⟨.ask t, rfl, (by intro u e; cases e), by simp [step, ht]⟩
    | wait k p =>
      cases ho : s.owner p with
      | none => exact ⟨.lock t, rfl, (by intro u e; cases e), by simp [step, ht, ho]⟩
      | some u =>
        obtain ⟨l', hl, k', todo, hm⟩ := hi.held p u ho
        have hw := hi.wmade _ (List.mem_of_getElem? ht) k p (List.mem_cons_self ..)
        have hf := hi.fmade _ (List.mem_of_getElem? hl) k' p todo hm
        have e : D.grp k = D.grp k' := by rw [hw] at hf; exact Option.some.inj hf
        cases l' with
        | nil => cases hm
        | cons f' l' =>
          rcases List.mem_cons.1 hm with e' | hm
          · subst e'
            cases todo with
            | nil => exact ⟨.finish u, rfl, (by intro u e; cases e), by simp [step, hl]⟩
            | cons d todo => exact ⟨.ask u, rfl, (by intro u e; cases e), by simp [step, hl]⟩
          · have lt := falls_lt D rank l' f' _ (hi.falls _ (List.mem_of_getElem? hl)) hm
            simp only [Frame.key] at lt hn
            exact ih (rank (D.grp f'.key)) (by rw [← hn, e]; exact lt) u f' l' hl rfl

/-! ### and not for ever -/

/-- The steps of a call, with at most `n` calls inside each other. -/
def cost (plan : K → List K) : Nat → K → Nat
  | 0, _ => 0
  | n + 1, k => 3 + (plan k).length + ((plan k).map (cost plan n)).sum

omit [DecidableEq G] in
theorem cost_fuel (D : Design K G) (rank : G → Nat) (hr : Ranked D rank) : ∀ (n m : Nat) (k : K), rank (D.grp k) < n → rank (D.grp k) < m → cost D.plan n k = cost D.plan m k
  | 0, _, _, h, _ => by omega
  | _ + 1, 0, _, _, h => by omega
  | n + 1, m + 1, k, h1, h2 => by
    simp only [cost]
    congr 2
    apply List.map_congr_left
    intro d hd
    have := hr k d hd
    exact cost_fuel D rank hr n m d (by omega) (by omega)

/-- The steps of a call. -/
def price (D : Design K G) (rank : G → Nat) (k : K) : Nat := cost D.plan (rank (D.grp k) + 1) k

omit [DecidableEq G] in
theorem price_eq (D : Design K G) (rank : G → Nat) (hr : Ranked D rank) (k : K) : price D rank k = 3 + (D.plan k).length + ((D.plan k).map (price D rank)).sum := by
  rw [price, cost]
  congr 2
  apply List.map_congr_left
  intro d hd
  have := hr k d hd
  exact cost_fuel D rank hr _ _ d (by omega) (by omega)

/-- What is left of a call. -/
def Frame.left (D : Design K G) (rank : G → Nat) : Frame K → Nat
  | .want k => price D rank k
  | .wait k _ => price D rank k - 1
  | .fetch _ _ todo => 1 + todo.length + (todo.map (price D rank)).sum

/-- What is left of all calls. -/
def budget (D : Design K G) (rank : G → Nat) (s : St K G) : Nat := (s.stacks.map fun l => (l.map (Frame.left D rank)).sum).sum

theorem sum_set {α : Type} (w : α → Nat) : ∀ (l : List α) (t : Nat) (x y : α), l[t]? = some y → ((l.set t x).map w).sum + w y = (l.map w).sum + w x
  | [], t, x, y, h => by simp at h
  | a :: l, 0, x, y, h => by simp at h; subst h; simp; omega
  | a :: l, t + 1, x, y, h => by
    have := sum_set w l t x y (by simpa using h)
    simp only [List.set_cons_succ, List.map_cons, List.sum_cons]
    omega

theorem budget_step (D : Design K G) (rank : G → Nat) (hr : Ranked D rank) (s s' : St K G) (a : Act K G) (hs : step D s a = some s') (hc : ∀ t k, a ≠ .call t k) :
    budget D rank s' + (if a.works then 1 else 0) ≤ budget D rank s := by
  have hw : ∀ t (x y : List (Frame K)), s.stacks[t]? = some y → ((s.stacks.set t x).map fun l => (l.map (Frame.left D rank)).sum).sum + (y.map (Frame.left D rank)).sum =
      (s.stacks.map fun l => (l.map (Frame.left D rank)).sum).sum + (x.map (Frame.left D rank)).sum := fun t x y h => sum_set _ _ _ _ _ h
  cases a with
  | call t k => exact absurd rfl (hc t k)
  | lookup t =>
    simp only [step] at hs
    split at hs <;> try (cases hs; done)
    rename_i k l ht
    have pe := price_eq D rank hr k
    split at hs <;> cases hs
    all_goals
      simp only [budget, Act.works, if_true]
      first
        | (have h := hw t (.wait k s.made.length :: l) _ ht
           simp only [List.map_cons, List.sum_cons, Frame.left] at h
           omega)
        | (rename_i p _
           have h := hw t (.wait k p :: l) _ ht
           simp only [List.map_cons, List.sum_cons, Frame.left] at h
           omega)
  | hit t =>
    simp only [step] at hs
    split at hs <;> try (cases hs; done)
    rename_i k p l ht
    have pe := price_eq D rank hr k
    split at hs <;> cases hs
    have h := hw t l _ ht
    simp only [List.map_cons, List.sum_cons, Frame.left] at h
    simp only [budget, Act.works, if_true]
    omega
  | lock t =>
    simp only [step] at hs
    split at hs <;> try (cases hs; done)
    rename_i k p l ht
    have pe := price_eq D rank hr k
    split at hs <;> cases hs
    have h := hw t (.fetch k p (D.plan k) :: l) _ ht
    simp only [List.map_cons, List.sum_cons, Frame.left] at h
    simp only [budget, Act.works, if_true]
    omega
  | ask t =>
    simp only [step] at hs
    split at hs <;> try (cases hs; done)
    rename_i k p d todo l ht
    cases hs
    have h := hw t (.want d :: .fetch k p todo :: l) _ ht
    simp only [List.map_cons, List.sum_cons, Frame.left, List.length_cons] at h
    simp only [budget, Act.works, if_true]
    omega
  | finish t =>
    simp only [step] at hs
    split at hs <;> try (cases hs; done)
    rename_i k p l ht
    cases hs
    have h := hw t l _ ht
    simp only [List.map_cons, List.sum_cons, Frame.left, List.length_nil, List.map_nil, List.sum_nil] at h
    simp only [budget, Act.works, if_true]
    omega
  | crash t =>
    simp only [step] at hs
    split at hs <;> try (cases hs; done)
    rename_i k p todo l ht
    cases hs
    have h := hw t [] _ ht
    simp only [List.map_cons, List.sum_cons, Frame.left, List.map_nil, List.sum_nil] at h
    simp only [budget, Act.works, if_true]
    omega
  | evict g =>
    simp only [step] at hs
    split at hs <;> cases hs
    simp [budget, Act.works]

theorem budget_run (D : Design K G) (rank : G → Nat) (hr : Ranked D rank) : ∀ (as : List (Act K G)) (s s' : St K G), run D s as = some s' → (∀ t k, Act.call t k ∉ as) →
    budget D rank s' + as.countP Act.works ≤ budget D rank s
  | [], s, s', h, _ => by cases h; simp
  | a :: as, s, s', h, hc => by
    obtain ⟨s1, h1, h2⟩ := Option.bind_eq_some_iff.1 h
    have a1 := budget_step D rank hr s s1 a h1 (fun t k e => hc t k (by simp [e]))
    have a2 := budget_run D rank hr as s1 s' h2 (fun t k e => hc t k (by simp [e]))
    rw [List.countP_cons]
    omega

/-! ### C151 -/

/-- `LRU` and `Mem`: one mutex for all keys. lru.go L13, mem.go L11. -/
def whole (plan : K → List K) : Design K Unit := { plan := plan, grp := fun _ => (), fixed := true }

/-- `RequestCache`: a mutex for every entry. request.go L15-20. -/
def perKey (plan : K → List K) : Design K K := { plan := plan, grp := id, fixed := false }

/-- If misses ask only for keys of a lower rank then all calls return: from every reachable state only so many steps can follow, unless there are new calls, and when nothing can go on
there is no call left. So no goroutine waits for ever, whatever the schedule. -/
theorem C151_ends_partial (D : Design K G) (rank : G → Nat) (hr : Ranked D rank) (n : Nat) (as : List (Act K G)) (s : St K G) (h : run D (start n) as = some s) :
    (∃ b, ∀ as' s', run D s as' = some s' → (∀ t k, Act.call t k ∉ as') → as'.countP Act.works ≤ b) ∧ (Stuck D s → Idle s) := by
  have hi := inv_run D rank hr as _ _ (inv_start D rank n) h
  refine ⟨⟨budget D rank s, fun as' s' h' hc => ?_⟩, fun hst l hl => ?_⟩
  · have := budget_run D rank hr as' s s' h' hc
    omega
  · obtain ⟨t, ht⟩ := List.getElem?_of_mem hl
    cases l with
    | nil => rfl
    | cons f l =>
      obtain ⟨a, ha, -, hs⟩ := progress D rank s hi _ t f l ht rfl
      rw [hst a ha] at hs
      cases hs

/-- A miss function that leaves the cache alone is fine for all of them. -/
theorem C151_plain_partial (D : Design K G) (hp : ∀ k, D.plan k = []) (n : Nat) (as : List (Act K G)) (s : St K G) (h : run D (start n) as = some s) :
    (∃ b, ∀ as' s', run D s as' = some s' → (∀ t k, Act.call t k ∉ as') → as'.countP Act.works ≤ b) ∧ (Stuck D s → Idle s) :=
  C151_ends_partial D (fun _ => 0) (fun k d hd => by rw [hp] at hd; cases hd) n as s h

/-- A `Request` waits only for a goroutine which fetches the same key. -/
theorem C151_waits_partial (plan : K → List K) [DecidableEq K] (rank : K → Nat) (hr : ∀ k, ∀ d ∈ plan k, rank d < rank k) (n : Nat) (as : List (Act K K)) (s : St K K)
    (h : run (perKey plan) (start n) as = some s) (t : Nat) (k : K) (p : Nat) (l : List (Frame K)) (ht : s.stacks[t]? = some (.wait k p :: l)) (hb : step (perKey plan) s (.lock t) = none) :
    ∃ u l' todo, u ≠ t ∧ s.stacks[u]? = some l' ∧ .fetch k p todo ∈ l' := by
  have hi := inv_run (perKey plan) rank hr as _ _ (inv_start (perKey plan) rank n) h
  simp only [step, ht] at hb
  split at hb
  · cases hb
  · rename_i ho
    obtain ⟨u, hu⟩ := Option.ne_none_iff_exists'.1 ho
    obtain ⟨l', hl, k', todo, hm⟩ := hi.held p u hu
    have hw := hi.wmade _ (List.mem_of_getElem? ht) k p (List.mem_cons_self ..)
    have hf := hi.fmade _ (List.mem_of_getElem? hl) k' p todo hm
    have e : k' = k := by rw [hw] at hf; exact (Option.some.inj hf).symm
    subst e
    refine ⟨u, l', todo, ?_, hl, hm⟩
    rintro rfl
    rw [ht] at hl
    cases hl
    rcases List.mem_cons.1 hm with e | hm
    · cases e
    · exact Nat.lt_irrefl (rank k') (falls_lt (perKey plan) rank l (.wait k' p) (.fetch k' p todo) (hi.falls _ (List.mem_of_getElem? ht)) hm)

/-- A miss function of an `LRU` or a `Mem` which asks the cache. -/
structure Dead (k d : K) (todo : List K) (s : St K Unit) : Prop where
  owner : s.owner 0 = some 0
  index : s.index () = some 0
  self : s.stacks[0]? = some [.wait d 0, .fetch k 0 todo]
  rest : ∀ t l, s.stacks[t]? = some l → t ≠ 0 → l = [] ∨ ∃ k', l = [.want k'] ∨ l = [.wait k' 0]

theorem dead_step (plan : K → List K) (k d : K) (todo : List K) (s s' : St K Unit) (a : Act K Unit) (hd : Dead k d todo s) (hs : step (whole plan) s a = some s') :
    Dead k d todo s' ∧ ((∃ t k', a = .call t k') ∨ ∃ t, a = .lookup t) := by
  obtain ⟨h1, h2, h3, h4⟩ := hd
  have h0 : ∀ (t : Nat) (l : List (Frame K)), s.stacks[t]? = some l → (∃ f l', l = f :: l' ∧ ∃ k' p todo', f = Frame.fetch k' p todo') → False := by
    rintro t l hl ⟨f, l', rfl, k', p, todo', rfl⟩
    by_cases e : t = 0
    · subst e; rw [h3] at hl; cases hl
    · rcases h4 t _ hl e with h | ⟨_, h | h⟩ <;> cases h
  have hw : ∀ (t : Nat) (k' : K) (p : Nat) (l : List (Frame K)), s.stacks[t]? = some (.wait k' p :: l) → p = 0 := by
    intro t k' p l hl
    by_cases e : t = 0
    · subst e; rw [h3] at hl; cases hl; rfl
    · rcases h4 t _ hl e with h | ⟨_, h | h⟩ <;> cases h; rfl
  have hset : ∀ (t : Nat) (l : List (Frame K)), t ≠ 0 → (l = [] ∨ ∃ k', l = [.want k'] ∨ l = [.wait k' 0]) → Dead k d todo { s with stacks := s.stacks.set t l } := by
    intro t l e hl
    refine ⟨h1, h2, ?_, ?_⟩
    · dsimp only; rw [List.getElem?_set_ne e]; exact h3
    · intro u l' hu e'
      rcases getElem?_set_cases _ _ _ _ _ hu with ⟨-, rfl⟩ | ⟨-, hu⟩
      · exact hl
      · exact h4 u l' hu e'
  cases a with
  | call t k' =>
    simp only [step] at hs
    split at hs <;> cases hs
    rename_i ht
    have e : t ≠ 0 := by rintro rfl; rw [h3] at ht; cases ht
    exact ⟨hset t _ e (.inr ⟨k', .inl rfl⟩), .inl ⟨t, k', rfl⟩⟩
  | lookup t =>
    simp only [step] at hs
    split at hs <;> try (cases hs; done)
    rename_i k' l ht
    simp only [h2] at hs
    cases hs
    have e : t ≠ 0 := by rintro rfl; rw [h3] at ht; cases ht
    have el : l = [] := by rcases h4 t _ ht e with h | ⟨_, h | h⟩ <;> cases h; rfl
    subst el
    exact ⟨hset t _ e (.inr ⟨k', .inr rfl⟩), .inr ⟨t, rfl⟩⟩
  | hit t =>
    simp only [step] at hs
    split at hs <;> try (cases hs; done)
    rename_i k' p l ht
    rw [hw _ _ _ _ ht, h1] at hs
    cases hs
  | lock t =>
    simp only [step] at hs
    split at hs <;> try (cases hs; done)
    rename_i k' p l ht
    rw [hw _ _ _ _ ht, h1] at hs
    cases hs
  | ask t =>
    simp only [step] at hs
    split at hs <;> try (cases hs; done)
    rename_i ht
    exact (h0 t _ ht ⟨_, _, rfl, _, _, _, rfl⟩).elim
  | finish t =>
    simp only [step] at hs
    split at hs <;> try (cases hs; done)
    rename_i ht
    exact (h0 t _ ht ⟨_, _, rfl, _, _, _, rfl⟩).elim
  | crash t =>
    simp only [step] at hs
    split at hs <;> try (cases hs; done)
    rename_i ht
    exact (h0 t _ ht ⟨_, _, rfl, _, _, _, rfl⟩).elim
  | evict g => cases hs

/-- C151 is violated by `LRU` and `Mem`: if a miss function asks the cache for any key, even one that is stored, then it waits for its own caller, and from then on no call of any goroutine
ever gets anything: all they can do is to begin and to wait. -/
theorem C151_whole_violated (plan : K → List K) (k d : K) (todo : List K) (hp : plan k = d :: todo) (n : Nat) (hn : 0 < n) :
    ∃ s, run (whole plan) (start n) [.call 0 k, .lookup 0, .lock 0, .ask 0, .lookup 0] = some s ∧ s.stacks[0]? = some [.wait d 0, .fetch k 0 todo] ∧
      ∀ as s', run (whole plan) s as = some s' → s'.stacks[0]? = s.stacks[0]? ∧ ∀ a ∈ as, (∃ t k', a = Act.call t k') ∨ ∃ t, a = Act.lookup t := by
  obtain ⟨n, rfl⟩ : ∃ m, n = m + 1 := ⟨n - 1, by omega⟩
  refine ⟨{ stacks := [.wait d 0, .fetch k 0 todo] :: List.replicate n [], owner := fun q => if q = 0 then some 0 else none, index := fun _ => some 0, made := [()] }, ?_, rfl, ?_⟩
  · simp [run, step, start, whole, List.replicate_succ, hp]
  · have hd : Dead k d todo ({ stacks := [.wait d 0, .fetch k 0 todo] :: List.replicate n [], owner := fun q => if q = 0 then some 0 else none, index := fun _ => some 0, made := [()] } : St K Unit) := by
      refine ⟨rfl, rfl, rfl, ?_⟩
      intro t l hl e
      obtain ⟨t, rfl⟩ : ∃ m, t = m + 1 := ⟨t - 1, by omega⟩
      left
      simp only [List.getElem?_cons_succ] at hl
      exact (List.mem_replicate.1 (List.mem_of_getElem? hl)).2
    intro as
    have gen : ∀ (as : List (Act K Unit)) (s s' : St K Unit), Dead k d todo s → run (whole plan) s as = some s' → Dead k d todo s' ∧ ∀ a ∈ as, (∃ t k', a = Act.call t k') ∨ ∃ t, a = Act.lookup t := by
      intro as
      induction as with
      | nil => intro s s' hd h; cases h; exact ⟨hd, by simp⟩
      | cons a as ih =>
        intro s s' hd h
        obtain ⟨s1, h1, h2⟩ := Option.bind_eq_some_iff.1 h
        obtain ⟨hd1, ha⟩ := dead_step plan k d todo s s1 a hd h1
        obtain ⟨hd2, has⟩ := ih s1 s' hd1 h2
        exact ⟨hd2, by simpa using ⟨ha, has⟩⟩
    intro s' h
    obtain ⟨h1, h2⟩ := gen as _ s' hd h
    exact ⟨h1.self, h2⟩

/-- C151 is violated: while an `LRU` or a `Mem` is told about one key, nobody gets another one that is stored; in the same situation `RequestCache` answers. -/
theorem C151_hit_violated : ∃ as : List (Act Nat Unit), ∃ s, run (whole fun _ => []) (start 2) as = some s ∧ s.stacks = [[.wait 0 0], [.fetch 1 0 []]] ∧ step (whole fun _ => []) s (.hit 0) = none ∧
    ∃ s', run (perKey fun _ => []) (start 2) [.call 0 0, .lookup 0, .lock 0, .finish 0, .call 1 1, .lookup 1, .lock 1, .call 0 0, .lookup 0] = some s' ∧
      s'.stacks = [[.wait 0 0], [.fetch 1 1 []]] ∧ (step (perKey fun _ => []) s' (.hit 0)).isSome :=
  ⟨[.call 0 0, .lookup 0, .lock 0, .finish 0, .call 1 1, .lookup 1, .lock 1, .call 0 0, .lookup 0], _, rfl, rfl, rfl, _, rfl, rfl, rfl⟩

/-- C151 is violated: two requests whose fetches ask for each other's key wait for ever. -/
theorem C151_cross_violated : ∃ as : List (Act Nat Nat), ∃ s, run (perKey fun k => [1 - k]) (start 2) as = some s ∧ s.stacks = [[.wait 1 1, .fetch 0 0 []], [.wait 0 0, .fetch 1 1 []]] ∧
    Stuck (perKey fun k => [1 - k]) s := by
  refine ⟨[.call 0 0, .call 1 1, .lookup 0, .lookup 1, .lock 0, .lock 1, .ask 0, .ask 1, .lookup 0, .lookup 1], _, rfl, rfl, ?_⟩
  intro a ha
  cases a with
  | call t k => cases ha
  | evict g => cases ha
  | lookup t | hit t | lock t | ask t | finish t | crash t => match t with
    | 0 => rfl
    | 1 => rfl
    | t + 2 => rfl

/-- Requests of 3, which ask for 2, 1 and 0, from two goroutines: ranks fall, so they end; after a panic the mutexes are free. -/
example : Ranked (perKey fun k => List.range k) id := by
  intro k d hd
  exact List.mem_range.1 hd

example : (run (perKey fun k => List.range k) (start 2) [.call 0 2, .lookup 0, .lock 0, .ask 0, .lookup 0, .lock 0, .call 1 2, .lookup 1]).map (fun s => (s.stacks, s.owner 0, s.owner 1)) =
      some ([[.fetch 0 1 [], .fetch 2 0 [1]], [.wait 2 0]], some 0, some 0) ∧
    (run (perKey fun k => List.range k) (start 2) [.call 0 2, .lookup 0, .lock 0, .ask 0, .lookup 0, .lock 0, .call 1 2, .lookup 1, .crash 0, .lock 1]).map (fun s => (s.stacks, s.owner 0, s.owner 1)) =
      some ([[], [.fetch 2 0 [0, 1]]], some 1, none) := ⟨rfl, rfl⟩

/-- After an eviction the key has another entry, and another goroutine need not wait. request.go L37. -/
example : (run (perKey fun _ => []) (start 2) [.call 0 2, .lookup 0, .lock 0, .evict 2, .call 1 2, .lookup 1, .lock 1]).map (fun s => s.stacks) = some [[.fetch 2 0 []], [.fetch 2 1 []]] := rfl

end Verif.Caches.Wait

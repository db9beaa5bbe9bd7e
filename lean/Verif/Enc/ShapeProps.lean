import Verif.Enc.SafetyProps
/-!
# Collections element by element, and structs in `any` (properties C109, C110; more on C45, C74, C75)
-/
set_option autoImplicit false
namespace Verif.Enc
open Verif.Strconv
variable {X : Ext}

/-! ### C109 -/

theorem uElems_iff {α : Type} (f : Node X → Out X α) (l : List (Node X)) :
    ((uElems f l).st = .ok ↔ ∀ n ∈ l, (f n).st = .ok) ∧ ((uElems f l).st = .ok → (uElems f l).val = l.map (fun n => (f n).val)) := by
  induction l with
  | nil => exact ⟨by simp [uElems, Out.done], fun _ => rfl⟩
  | cons n l ih =>
    simp only [uElems]
    cases h : (f n).st with
    | ok => exact ⟨by simpa [h] using ih.1, fun hk => by simpa using ih.2 (by simpa using hk)⟩
    | err => exact ⟨by simp [h], fun hk => by simp at hk⟩
    | panic => exact ⟨by simp [h], fun hk => by simp at hk⟩

theorem assign_fail {α β : Type} (r : Out X α) (f : α → β) (old : β) (h : r.st ≠ .ok) : (r.assign f old).val = old ∧ (r.assign f old).st = r.st := by
  unfold Out.assign
  cases hs : r.st with
  | ok => exact absurd hs h
  | err => exact ⟨rfl, rfl⟩
  | panic => exact ⟨rfl, rfl⟩

theorem assign_ok {α β : Type} (r : Out X α) (f : α → β) (old : β) (h : r.st = .ok) : (r.assign f old).val = f r.val ∧ (r.assign f old).st = .ok := by
  unfold Out.assign
  rw [h]
  exact ⟨rfl, rfl⟩

/-- C109: a list goes into a slice if every element goes into a fresh variable, and then the slice holds exactly these, in order; otherwise
the slice is what it was. -/
theorem C109_slice (H : Handler X) (O : Order) (t : Ty) (l : List (Node X)) (old : Option (List (Val X t))) :
    ((unmarshal H O (.slice t) (.list l) old).st = .ok ↔ ∀ n ∈ l, (unmarshal H O t n (zero X t)).st = .ok) ∧
    ((unmarshal H O (.slice t) (.list l) old).st = .ok →
      (unmarshal H O (.slice t) (.list l) old).val = (some (l.map fun n => (unmarshal H O t n (zero X t)).val) : Option (List (Val X t)))) ∧
    ((unmarshal H O (.slice t) (.list l) old).st ≠ .ok → (unmarshal H O (.slice t) (.list l) old).val = old) := by
  have h := uElems_iff (fun n => unmarshal H O t n (zero X t)) l
  show (((uElems (fun n => unmarshal H O t n (zero X t)) l).assign some old).st = .ok ↔ _) ∧
    (((uElems (fun n => unmarshal H O t n (zero X t)) l).assign some old).st = .ok → ((uElems (fun n => unmarshal H O t n (zero X t)) l).assign some old).val = _) ∧
    (((uElems (fun n => unmarshal H O t n (zero X t)) l).assign some old).st ≠ .ok → ((uElems (fun n => unmarshal H O t n (zero X t)) l).assign some old).val = old)
  by_cases hk : (uElems (fun n => unmarshal H O t n (zero X t)) l).st = .ok
  · obtain ⟨h1, h2⟩ := assign_ok _ (some : _ → Option (List (Val X t))) old hk
    exact ⟨⟨fun _ => h.1.1 hk, fun _ => h2⟩, fun _ => by rw [h1, h.2 hk], fun hn => absurd h2 hn⟩
  · obtain ⟨h1, h2⟩ := assign_fail _ (some : _ → Option (List (Val X t))) old hk
    exact ⟨⟨fun hs => absurd (h2.symm.trans hs) hk, fun hs => absurd (h.1.2 hs) hk⟩, fun hs => absurd (h2.symm.trans hs) hk, fun _ => h1⟩

theorem uArray_list {α : Type} (k : Nat) (f : Node X → Out X α) (l : List (Node X)) (z old : { l : List α // l.length = k }) (hl : l.length = k) :
    uArray k f (.list l) z old = (uElems f l).assign (fun vs => if h : vs.length = k then (⟨vs, h⟩ : { l : List α // l.length = k }) else old) old := by
  simp only [uArray]; rw [if_pos hl]

theorem uArray_length {α : Type} (k : Nat) (f : Node X → Out X α) (l : List (Node X)) (z old : { l : List α // l.length = k }) (hl : l.length ≠ k) :
    uArray k f (.list l) z old = .mk' old .err := by
  simp only [uArray]; rw [if_neg hl]

/-- C109: a list goes into an array if it has the array's length and every element goes into a fresh variable; then the array holds exactly
these, in order; otherwise the array is what it was. -/
theorem C109_array (H : Handler X) (O : Order) (k : Nat) (t : Ty) (l : List (Node X)) (old : { l : List (Val X t) // l.length = k }) :
    ((unmarshal H O (.array k t) (.list l) old).st = .ok ↔ l.length = k ∧ ∀ n ∈ l, (unmarshal H O t n (zero X t)).st = .ok) ∧
    ((unmarshal H O (.array k t) (.list l) old).st = .ok →
      @Subtype.val _ (fun l : List (Val X t) => l.length = k) (unmarshal H O (.array k t) (.list l) old).val = l.map fun n => (unmarshal H O t n (zero X t)).val) ∧
    ((unmarshal H O (.array k t) (.list l) old).st ≠ .ok → (unmarshal H O (.array k t) (.list l) old).val = old) := by
  have h := uElems_iff (fun n => unmarshal H O t n (zero X t)) l
  by_cases hl : l.length = k
  · have he : unmarshal H O (.array k t) (.list l) old = (uElems (fun n => unmarshal H O t n (zero X t)) l).assign
        (fun vs => if h : vs.length = k then (⟨vs, h⟩ : { l : List (Val X t) // l.length = k }) else old) old := by
      exact uArray_list k _ l _ old hl
    rw [he]
    by_cases hk : (uElems (fun n => unmarshal H O t n (zero X t)) l).st = .ok
    · obtain ⟨h1, h2⟩ := assign_ok (uElems (fun n => unmarshal H O t n (zero X t)) l) (fun vs => if h : vs.length = k then (⟨vs, h⟩ : { l : List (Val X t) // l.length = k }) else old) old hk
      refine ⟨⟨fun _ => ⟨hl, h.1.1 hk⟩, fun _ => h2⟩, fun _ => ?_, fun hn => absurd h2 hn⟩
      rw [h1, h.2 hk, dif_pos (by simpa using hl)]
    · obtain ⟨h1, h2⟩ := assign_fail (uElems (fun n => unmarshal H O t n (zero X t)) l) (fun vs => if h : vs.length = k then (⟨vs, h⟩ : { l : List (Val X t) // l.length = k }) else old) old hk
      exact ⟨⟨fun hs => absurd (h2.symm.trans hs) hk, fun hs => absurd (h.1.2 hs.2) hk⟩, fun hs => absurd (h2.symm.trans hs) hk, fun _ => h1⟩
  · have he : unmarshal H O (.array k t) (.list l) old = .mk' old .err := by
      exact uArray_length k _ l _ old hl
    rw [he]
    refine ⟨⟨fun hs => ?_, fun hs => absurd hs.1 hl⟩, fun hs => ?_, fun _ => rfl⟩
    · cases hs
    · cases hs

theorem uEntries_iff {α : Type} (f : Node X → Out X α) (l : List (Str × Node X)) : ∀ acc : List (Str × α),
    ((uEntries .str f l acc).st = .ok ↔ ∀ e ∈ l, (f e.2).st = .ok) ∧
    ((uEntries .str f l acc).st = .ok → (uEntries .str f l acc).val = l.foldl (fun acc e => insertKey e.1 (f e.2).val acc) acc) := by
  induction l with
  | nil => exact fun acc => ⟨by simp [uEntries, Out.done], fun _ => rfl⟩
  | cons e l ih =>
    intro acc
    obtain ⟨k, n⟩ := e
    simp only [uEntries, normKey]
    cases h : (f n).st with
    | ok =>
      have := ih (insertKey k (f n).val acc)
      exact ⟨by simpa [h] using this.1, fun hk => by simpa using this.2 (by simpa using hk)⟩
    | err => exact ⟨by simp [h], fun hk => by simp at hk⟩
    | panic => exact ⟨by simp [h], fun hk => by simp at hk⟩

/-- C109: an object goes into a map with string keys if every value goes into a fresh variable; then the map has exactly the object's keys
with these values; otherwise the map is what it was. -/
theorem C109_map (H : Handler X) (O : Order) (t : Ty) (m : List (Str × Node X)) (hm : SortedKeys m) (old : Option (List (Str × Val X t))) :
    ((unmarshal H O (.map .str t) (.map m) old).st = .ok ↔ ∀ e ∈ m, (unmarshal H O t e.2 (zero X t)).st = .ok) ∧
    ((unmarshal H O (.map .str t) (.map m) old).st = .ok →
      (unmarshal H O (.map .str t) (.map m) old).val = (some (m.map fun e => (e.1, (unmarshal H O t e.2 (zero X t)).val)) : Option (List (Str × Val X t)))) ∧
    ((unmarshal H O (.map .str t) (.map m) old).st ≠ .ok → (unmarshal H O (.map .str t) (.map m) old).val = old) := by
  have h := uEntries_iff (fun n => unmarshal H O t n (zero X t)) (O.perm m) []
  have hmem : (∀ e ∈ O.perm m, (unmarshal H O t e.2 (zero X t)).st = .ok) ↔ ∀ e ∈ m, (unmarshal H O t e.2 (zero X t)).st = .ok :=
    ⟨fun h e he => h e ((O.isPerm m).mem_iff.2 he), fun h e he => h e ((O.isPerm m).mem_iff.1 he)⟩
  rw [hmem] at h
  show (((uEntries .str (fun n => unmarshal H O t n (zero X t)) (O.perm m) []).assign some old).st = .ok ↔ _) ∧
    (((uEntries .str (fun n => unmarshal H O t n (zero X t)) (O.perm m) []).assign some old).st = .ok → ((uEntries .str (fun n => unmarshal H O t n (zero X t)) (O.perm m) []).assign some old).val = _) ∧
    (((uEntries .str (fun n => unmarshal H O t n (zero X t)) (O.perm m) []).assign some old).st ≠ .ok → ((uEntries .str (fun n => unmarshal H O t n (zero X t)) (O.perm m) []).assign some old).val = old)
  by_cases hk : (uEntries .str (fun n => unmarshal H O t n (zero X t)) (O.perm m) []).st = .ok
  · obtain ⟨h1, h2⟩ := assign_ok _ (some : _ → Option (List (Str × Val X t))) old hk
    refine ⟨⟨fun _ => h.1.1 hk, fun _ => h2⟩, fun _ => ?_, fun hn => absurd h2 hn⟩
    rw [h1, h.2 hk]
    have hs : SortedKeys (m.map fun e => (e.1, (unmarshal H O t e.2 (zero X t)).val)) := by
      unfold SortedKeys at hm ⊢
      rw [List.pairwise_map]
      exact hm
    have hp := ofEntries_perm ((O.perm m).map fun e => (e.1, (unmarshal H O t e.2 (zero X t)).val)) _ ((O.isPerm m).map _) hs
    unfold ofEntries at hp
    rw [List.foldl_map] at hp
    rw [hp]
  · obtain ⟨h1, h2⟩ := assign_fail _ (some : _ → Option (List (Str × Val X t))) old hk
    exact ⟨⟨fun hs => absurd (h2.symm.trans hs) hk, fun hs => absurd (h.1.2 hs) hk⟩, fun hs => absurd (h2.symm.trans hs) hk, fun _ => h1⟩

/-- C109 (violated): a pointer is replaced although what it should point to is not read: the old value is lost, also when there was one. -/
theorem C109_pointer_violated (H : Handler X) (O : Order) (old : Option (BitVec 64)) :
    (unmarshal H O (.ptr (.int .w64)) (.str (lit "x")) old).st = .err ∧
      (unmarshal H O (.ptr (.int .w64)) (.str (lit "x")) old).val = (some 0 : Option (BitVec 64)) := ⟨rfl, rfl⟩

/-- C109 (violated): a struct keeps the fields that were set before the one that failed. -/
theorem C109_struct_violated (H : Handler X) (O : Order) (a : Str) (b : BitVec 64) (new : Str) :
    ∃ r, unmarshal H O (.struct (.cons { name := lit "A" } .string (.cons { name := lit "B" } (.int .w64) .nil)))
        (.map [(lit "A", .str new), (lit "B", .str (lit "x"))]) (a, b, ()) = ⟨r, .err, []⟩ ∧ r = ((new, b, ()) : Str × BitVec 64 × Unit) :=
  ⟨_, rfl, rfl⟩

/-! ### C110 -/

mutual
/-- Only values JSON has, and structs in which every field is called what it is called in JSON. -/
def Node.sameNames : Node X → Prop
  | .nil | .bool _ | .str _ | .digits _ => True
  | .list l => Node.listSameNames l
  | .map m => SortedKeys m ∧ Node.mapSameNames m
  | .pairs l => Node.pairsSameNames l
  | .int _ | .float _ | .time _ | .dur _ => False
def Node.listSameNames : List (Node X) → Prop
  | [] => True
  | n :: l => n.sameNames ∧ Node.listSameNames l
def Node.mapSameNames : List (Str × Node X) → Prop
  | [] => True
  | (_, n) :: l => n.sameNames ∧ Node.mapSameNames l
def Node.pairsSameNames : List ((Str × Str) × Node X) → Prop
  | [] => True
  | ((go, js), n) :: l => go = js ∧ n.sameNames ∧ Node.pairsSameNames l
end

theorem mapNative_eq (m : List (Str × Node X)) : Node.mapNative m = m.map fun e => (e.1, e.2.native) := by
  induction m with
  | nil => rfl
  | cons e m ih => obtain ⟨k, n⟩ := e; simp [Node.mapNative, ih]

theorem insertKey_map {α β : Type} (g : α → β) (k : Str) (v : α) (m : List (Str × α)) :
    (insertKey k v m).map (fun e => (e.1, g e.2)) = insertKey k (g v) (m.map fun e => (e.1, g e.2)) := by
  induction m with
  | nil => rfl
  | cons e m ih =>
    obtain ⟨k', v'⟩ := e
    simp only [insertKey, List.map_cons]
    split
    · rfl
    · split
      · rfl
      · simp [ih]

theorem ofEntries_map {α β : Type} (g : α → β) (l : List (Str × α)) :
    (ofEntries l).map (fun e => (e.1, g e.2)) = ofEntries (l.map fun e => (e.1, g e.2)) := by
  have key : ∀ (l acc : List (Str × α)), (l.foldl (fun m e => insertKey e.1 e.2 m) acc).map (fun e => (e.1, g e.2)) =
      (l.map fun e => (e.1, g e.2)).foldl (fun m e => insertKey e.1 e.2 m) (acc.map fun e => (e.1, g e.2)) := by
    intro l
    induction l with
    | nil => intro acc; rfl
    | cons e l ih => intro acc; simp only [List.foldl_cons, List.map_cons, ih, insertKey_map]
  exact key l []

theorem ofEntries_idem {α : Type} (l : List (Str × α)) : ofEntries (ofEntries l) = ofEntries l :=
  ofEntries_sorted _ (foldl_sorted l [] List.Pairwise.nil)

mutual
theorem native_norm : ∀ n : Node X, n.sameNames → n.norm.native = n.native
  | .nil, _ | .bool _, _ | .str _, _ | .digits _, _ => rfl
  | .list l, h => by simp only [Node.norm, Node.native, listNative_norm l h]
  | .map m, h => by simp only [Node.norm, Node.native, mapNative_norm m h.2]
  | .pairs l, h => by
    simp only [Node.norm, Node.native, mapNative_eq, ofEntries_map, ofEntries_idem]
    rw [← mapNative_eq, pairsNative_norm l h]
  | .int _, h | .float _, h | .time _, h | .dur _, h => h.elim
theorem listNative_norm : ∀ l : List (Node X), Node.listSameNames l → Node.listNative (Node.listNorm l) = Node.listNative l
  | [], _ => rfl
  | n :: l, h => by simp only [Node.listNorm, Node.listNative, native_norm n h.1, listNative_norm l h.2]
theorem mapNative_norm : ∀ l : List (Str × Node X), Node.mapSameNames l → Node.mapNative (Node.mapNorm l) = Node.mapNative l
  | [], _ => rfl
  | (k, n) :: l, h => by simp only [Node.mapNorm, Node.mapNative, native_norm n h.1, mapNative_norm l h.2]
theorem pairsNative_norm : ∀ l : List ((Str × Str) × Node X), Node.pairsSameNames l → Node.mapNative (Node.pairsNorm l) = Node.pairsNative l
  | [], _ => rfl
  | ((go, js), n) :: l, h => by
    have hk : go = js := h.1
    simp only [Node.pairsNorm, Node.mapNative, Node.pairsNative, native_norm n h.2.1, pairsNative_norm l h.2.2, hk]
end

/-- C110: as long as every field is called what it is called in JSON, what ends up in the `any` is the same with and without JSON in between. -/
theorem C110_partial (hX : Laws X) (H : Handler X) (O : Order) (n : Node X) (hn : n.sameNames) (hwf : n.WF) (s : Str) (he : encode n = .ok s) (hd : n.depth ≤ maxDepth) :
    unmarshalJSON H O .any s Any.nil = unmarshal H O .any n Any.nil := by
  unfold unmarshalJSON
  rw [show decode (X := X) s = _ from C39_round_trip hX n hwf s he hd]
  show Out.done n.norm.intoAny = Out.done n.intoAny
  congr 1
  have h := native_norm n hn
  cases n with
  | int _ => exact hn.elim
  | float _ => exact hn.elim
  | time _ => exact hn.elim
  | dur _ => exact hn.elim
  | nil => rfl
  | bool _ => rfl
  | str _ => rfl
  | digits _ => rfl
  | list _ => exact h
  | map _ => exact h
  | pairs _ => exact h

/-- C110 (violated): a struct put into an `any` has the Go names of its fields as keys, although its JSON text, its documentation and every other
conversion use the JSON names: `{"id": …}` becomes `ID`. -/
theorem C110_names_violated (H : Handler X) (O : Order) (v : Str) :
    ∃ n, marshal O (.struct (.cons { name := lit "ID", tag := lit "id" } .string .nil)) ((v, ()) : Str × Unit) = .ok n ∧
      (unmarshal H O .any n (zero X .any)).val = (Any.map [(lit "ID", .str v)] : Any X) ∧
      n.norm = .map [(lit "id", .str v)] ∧
      (unmarshal H O .any n.norm (zero X .any)).val = (Any.map [(lit "id", .str v)] : Any X) :=
  ⟨_, rfl, rfl, rfl, rfl⟩

/-- C110: as long as no two fields have the same Go name, the `any` holds every field under its Go name. -/
theorem C110_go_names (H : Handler X) (O : Order) (l : List ((Str × Str) × Node X)) (hn : (l.map (·.1.1)).Nodup) :
    ∃ m, (unmarshal H O .any (.pairs l) (zero X .any)).val = (Any.map m : Any X) ∧ ∀ p ∈ l, lookupKey p.1.1 m = some p.2.native := by
  refine ⟨_, rfl, fun p hp => ?_⟩
  have he : Node.pairsNative l = l.map fun p => (p.1.1, p.2.native) := by
    clear hn hp
    induction l with
    | nil => rfl
    | cons e l ih => obtain ⟨⟨k, j⟩, n⟩ := e; simp [Node.pairsNative, ih]
  rw [he, lookup_ofEntries, lookup_reverse_nodup _ _ (by rw [List.map_map]; exact hn)]
  clear he
  induction l with
  | nil => cases hp
  | cons e l ih =>
    rw [List.map_cons, List.nodup_cons] at hn
    rw [List.map_cons, lookupKey]
    rcases List.mem_cons.1 hp with h | h
    · subst h; simp
    · have hne : e.1.1 ≠ p.1.1 := fun hx => hn.1 (List.mem_map.2 ⟨p, h, hx.symm⟩)
      simp only [hne, hne.symm, if_false]
      exact ih hn.2 h

/-! ### more on C45, C74, C75 -/

/-- C45 is violated for keys as well: the key 300 of an object becomes 44 in a `map[int8]…`, and so the keys 44 and 300 become one. -/
theorem C45_key_violated (H : Handler X) :
    (unmarshal H sortedOrder (.map (.int .w8) .bool) (.map [(lit "300", .bool true)]) (zero X _)) = .done (some [(lit "44", true)] : Option (List (Str × Bool))) ∧
    (unmarshal H sortedOrder (.map (.int .w8) .bool) (.map [(lit "300", .bool true), (lit "44", .bool false)]) (zero X _)) =
      .done (some [(lit "44", false)] : Option (List (Str × Bool))) := by
  have k1 : normKey (.int .w8) (lit "300") = some (lit "44") := by decide +kernel
  have k2 : normKey (.int .w8) (lit "44") = some (lit "44") := by decide +kernel
  have i1 : ∀ b c : Bool, insertKey (lit "44") b (insertKey (lit "44") c []) = [(lit "44", b)] := by decide
  refine ⟨?_, ?_⟩
  · apply un_map
    show uEntries (.int .w8) (fun n => unmarshal H sortedOrder .bool n (zero X .bool)) [(lit "300", .bool true)] [] = _
    simp only [uEntries, k1]
    rfl
  · apply un_map
    show uEntries (.int .w8) (fun n => unmarshal H sortedOrder .bool n (zero X .bool)) [(lit "300", .bool true), (lit "44", .bool false)] [] = _
    simp only [uEntries, k1, k2]
    exact congrArg Out.done (i1 false true)

/-- C74 is violated: a node that holds pairs with a value JSON does not have panics, also inside a map, although the same value in a map is an error. -/
theorem C74_pairs_violated (f : X.F) (hf : X.fJson f = none) (go js : Str) :
    marshalNode (.pairs [((go, js), .float f)]) = .panic ∧ marshalNode (.map [(js, .pairs [((go, js), .float f)])]) = .panic ∧
      marshalNode (.map [(js, .float f)]) = .err := by
  have h1 : Node.pairsEncodable [((go, js), (.float f : Node X))] = false := by simp [Node.pairsEncodable, Node.encodable, hf]
  have h2 : Node.mapEncodable [(js, (.float f : Node X))] = false := by simp [Node.mapEncodable, Node.encodable, hf]
  have h3 : Node.mapEncodable [(js, (.pairs [((go, js), .float f)] : Node X))] = false := by simp [Node.mapEncodable, Node.encodable, h1]
  refine ⟨?_, ?_, ?_⟩
  · simp only [marshalNode, h1]; rfl
  · simp [marshalNode, h3, Node.mapPanics, Node.encodable, h1, Node.jsonPanics]
  · simp [marshalNode, h2, Node.mapPanics, Node.encodable, hf, Node.jsonPanics]

/-- C75 is violated: a `Duration` node panics in every variable for integers, floats and strings. -/
theorem C75_duration_violated (H : Handler X) (O : Order) (d : Int) :
    (∀ (w : Width) (old : BitVec w.bits), (unmarshal H O (.int w) (.dur d) old).st = .panic) ∧ (∀ (w : Width) (old : BitVec w.bits), (unmarshal H O (.uint w) (.dur d) old).st = .panic) ∧
    (∀ old : X.F, (unmarshal H O .float64 (.dur d) old).st = .panic) ∧ (∀ old : Str, (unmarshal H O .string (.dur d) old).st = .panic) :=
  ⟨fun _ _ => rfl, fun _ _ => rfl, fun _ => rfl, fun _ => rfl⟩

/-! ### concrete cases -/

/-- C109: an array of two from lists of two, one and three. -/
example : (unmarshal acceptAll backwards (.array 2 .string) (.list [.str ['a'], .str ['b']]) (zero XT _)).st = .ok ∧
    (unmarshal acceptAll backwards (.array 2 .string) (.list [.str ['a']]) (zero XT _)).st = .err ∧
    (unmarshal acceptAll backwards (.array 2 .string) (.list [.str ['a'], .str ['b'], .str ['c']]) (zero XT _)).st = .err := by decide

end Verif.Enc

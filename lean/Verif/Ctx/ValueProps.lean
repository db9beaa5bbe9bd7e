import Verif.Ctx.Props
/-!
# Properties of context values and deadlines (C94, C95)
-/
set_option autoImplicit false
namespace Verif.Ctx

/-! ### C94 -/

/-- What one call attaches under a user key: `WithValue`, `WithTag` and the tag of `WithTracking`. -/
def Wrap.attaches (quote : String → String) (k : UKey) : Wrap → Option Val
  | .value k' v => if k' = k then some (.user v) else none
  | .tag key j => if k = .str key then some (.json j) else none
  | .tracking u s => if k = .str "tracking-id" then some (.json (quote (if s = "" then u else s))) else none
  | _ => none

/-- C94: whatever the sequence of derivations, `Value` of a user key is what the last call attached under it, and tags answer to
plain string keys: they shadow, and are shadowed by, values stored under the same string. -/
theorem C94_last_attached (quote : String → String) (k : UKey) (ws : List Wrap) :
    value (.user k) (build quote .background ws) = (ws.filterMap (Wrap.attaches quote k)).getLast? := by
  have gen : ∀ (ws : List Wrap) (c : Ctx), value (.user k) (build quote c ws) =
      ((ws.filterMap (Wrap.attaches quote k)).getLast?).or (value (.user k) c) := by
    intro ws
    induction ws with
    | nil => intro c; simp [build]
    | cons w ws ih =>
      intro c
      have h1 : build quote c (w :: ws) = build quote (w.apply quote c) ws := rfl
      rw [h1, ih]
      have h2 : value (.user k) (w.apply quote c) = (w.attaches quote k).or (value (.user k) c) := by
        cases w <;> simp only [Wrap.apply, Wrap.attaches, withTracking, value]
        case value k' v =>
          by_cases h : k' = k
          · simp [h]
          · simp [h, Ne.symm h]
        case tag key j => by_cases h : k = .str key <;> simp [h]
        case tracking u s => by_cases h : k = .str "tracking-id" <;> simp [h]
        all_goals simp
      rw [h2]
      cases ha : w.attaches quote k with
      | none => simp [ha]
      | some v =>
        simp only [ha, List.filterMap_cons, Option.some_or, List.getLast?_cons]
        cases (ws.filterMap (Wrap.attaches quote k)).getLast? <;> simp
  simpa [value] using gen ws .background

/-- C94 (the surprise): a tag hides a value stored under the same string, though the two calls look unrelated. -/
theorem C94_tag_shadows (quote : String → String) (ws : List Wrap) (key j : String) (v : Nat) :
    value (.user (.str key)) (build quote .background (ws ++ [.value (.str key) v, .tag key j])) = some (.json j) := by
  rw [C94_last_attached]; simp [Wrap.attaches]

/-- C94: keys of a type of their own are never touched by tags or tracking. -/
theorem C94_typed_keys_safe (quote : String → String) (n : Nat) (ws : List Wrap) :
    value (.user (.other n)) (build quote .background ws) =
      (ws.filterMap (fun w => match w with | .value (.other m) v => if m = n then some (Val.user v) else none | _ => none)).getLast? := by
  rw [C94_last_attached]
  congr 1
  apply congrArg (fun f => List.filterMap f ws)
  funext w
  cases w <;> simp [Wrap.attaches]
  case value k v => cases k <;> simp

/-! ### C95 -/

/-- A derivation: any of the other calls, or `WithDeadline` / `WithTimeout` with an absolute time. -/
inductive Derive where
  | plain (w : Wrap) (h : ∀ id d, w ≠ .cancel id (some d))
  | deadline (id d : Nat)

def Derive.apply (quote : String → String) (c : Ctx) : Derive → Ctx
  | .plain w _ => w.apply quote c
  | .deadline id d => withDeadline id c d

/-- Whether a derivation is `Detach`. -/
def Derive.isDetach : Derive → Bool
  | .plain .detach _ => true
  | _ => false

/-- The deadlines asked for since the last `Detach`. -/
def asked : List Derive → List Nat
  | [] => []
  | .deadline _ d :: ds => if ds.any Derive.isDetach then asked ds else d :: asked ds
  | .plain _ _ :: ds => asked ds

/-- The earlier of two deadlines, where `none` means never. -/
def earlier : Option Nat → Option Nat → Option Nat
  | none, d => d
  | d, none => d
  | some a, some b => some (min a b)

theorem deadline_withDeadline (id : Nat) (c : Ctx) (d : Nat) : deadline (withDeadline id c d) = earlier (deadline c) (some d) := by
  unfold withDeadline
  cases hd : deadline c with
  | none => simp [deadline, earlier]
  | some cur =>
    simp only
    split
    · simp [deadline, hd, earlier]; omega
    · simp [deadline, earlier]; omega

theorem deadline_plain (quote : String → String) (c : Ctx) (w : Wrap) (h : ∀ id d, w ≠ .cancel id (some d)) :
    deadline (w.apply quote c) = if w = .detach then none else deadline c := by
  cases w <;> simp_all [Wrap.apply, deadline, withTracking]
  case cancel id dl => cases dl <;> simp_all [deadline]

/-- C95: after any sequence of derivations the deadline is the earliest one asked for since the last `Detach` (none when none was
asked): a child never outlives its parent's deadline, whatever it asks for. -/
theorem C95_earliest (quote : String → String) (ds : List Derive) :
    deadline (ds.foldl (Derive.apply quote) .background) = (asked ds).min? := by
  have min_earlier : ∀ (l : List Nat) (a : Nat), (a :: l).min? = earlier (some a) l.min? := by
    intro l a
    rw [List.min?_cons]
    cases l.min? <;> simp [earlier]
  have earlier_assoc : ∀ a b c : Option Nat, earlier (earlier a b) c = earlier a (earlier b c) := by
    intro a b c; cases a <;> cases b <;> cases c <;> simp [earlier, Nat.min_assoc]
  have gen : ∀ (ds : List Derive) (c : Ctx), deadline (ds.foldl (Derive.apply quote) c) =
      if ds.any Derive.isDetach then (asked ds).min? else earlier (deadline c) (asked ds).min? := by
    intro ds
    induction ds with
    | nil => intro c; cases h : deadline c <;> simp [asked, earlier, h]
    | cons x ds ih =>
      intro c
      rw [List.foldl_cons, ih]
      cases x with
      | plain w h =>
        simp only [Derive.apply, asked, List.any_cons]
        rw [deadline_plain quote c w h]
        by_cases hw : w = .detach
        · subst hw; simp only [if_true, Derive.isDetach, Bool.true_or, earlier]; split <;> rfl
        · have : (Derive.plain w h).isDetach = false := by
            cases w <;> first | rfl | exact absurd rfl hw
          simp only [hw, if_false, this, Bool.false_or]
      | deadline id d =>
        simp only [Derive.apply, asked, List.any_cons, Derive.isDetach, Bool.false_or]
        rw [deadline_withDeadline]
        by_cases ha : (ds.any Derive.isDetach) = true
        · simp [ha]
        · simp [ha, min_earlier, earlier_assoc]
  have := gen ds .background
  rw [this]
  simp only [deadline]
  split
  · rfl
  · cases (asked ds).min? <;> rfl

/-- C95: in particular a child's deadline is never later than its parent's, whatever is asked for. -/
theorem C95_never_extended (c : Ctx) (id d : Nat) (p : Nat) (h : deadline c = some p) :
    ∃ q, deadline (withDeadline id c d) = some q ∧ q ≤ p ∧ q ≤ d := by
  rw [deadline_withDeadline, h]
  exact ⟨min p d, rfl, by omega, by omega⟩

/-! ### concrete cases -/

example : value (.user (.str "a")) (build (fun s => s) .background sampleWraps) = some (.json "3") := by decide
example : value (.user (.str "tracking-id")) (build (fun s => s) .background sampleWraps) = some (.json "u") := by decide
example : deadline ([Derive.deadline 0 9, .plain .detach (by simp), .deadline 1 7, .plain (.tag "a" "1") (by simp), .deadline 2 12].foldl
    (Derive.apply (fun s => s)) .background) = some 7 := by decide

end Verif.Ctx

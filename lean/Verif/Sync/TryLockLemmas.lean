import Verif.Sync.TryLock
set_option autoImplicit false
namespace Verif.Sync

/-- The helper a `TryLock` call in progress started. -/
def APC.ref : APC → Option Nat
  | .sel h => some h
  | .closing h _ => some h
  | _ => none

def APC.owns : APC → Bool
  | .holds => true
  | .closing _ true => true
  | _ => false

/-- Relation between a `TryLock` call and its helper. -/
structure Inv (s : Sys) : Prop where
  own : ∃ o : Option Holder, s.locked = o.isSome ∧ (∀ a, (s.agents a).owns = true ↔ o = some (.agent a)) ∧
    (∀ h, ((s.helpers h).pc = .recv ∨ (s.helpers h).pc = .unlock) ↔ o = some (.helper h))
  sel : ∀ a h, s.agents a = .sel h → h < s.nh ∧ (s.helpers h).closed = false ∧ ((s.helpers h).pc = .want ∨ (s.helpers h).pc = .recv)
  clo : ∀ a h r, s.agents a = .closing h r → h < s.nh ∧ (s.helpers h).closed = false ∧
    (if r then (s.helpers h).pc = .gotOk ∨ (s.helpers h).pc = .exited else (s.helpers h).pc = .want ∨ (s.helpers h).pc = .recv)
  uniq : ∀ a a' h, (s.agents a).ref = some h → (s.agents a').ref = some h → a = a'
  caller : ∀ h, (s.helpers h).closed = false → ∃ a, (s.agents a).ref = some h
  unl : ∀ h, (s.helpers h).pc = .unlock → (s.helpers h).closed = true
  fresh : ∀ h, s.nh ≤ h → (s.helpers h).pc = .exited ∧ (s.helpers h).closed = true

theorem inv_init : Inv Sys.init := by
  refine ⟨⟨none, rfl, ?_⟩, ?_, ?_, ?_, ?_, ?_, ?_⟩ <;> simp [Sys.init, APC.ref, APC.owns]

@[simp] theorem upd_same {β : Type} (f : Nat → β) (i : Nat) (v : β) : upd f i v i = v := by simp [upd]
theorem upd_ne {β : Type} (f : Nat → β) (i j : Nat) (v : β) (h : j ≠ i) : upd f i v j = f j := by simp [upd, h]


/-- Every step keeps the invariant and none panics. -/
theorem step_inv (s : Sys) (inv : Inv s) (a : Act) : s.step a = .error .disabled ∨ ∃ s', s.step a = .ok s' ∧ Inv s' := by
  obtain ⟨⟨o, hl, hoa, hoh⟩, sel, clo, uniq, caller, unl, fresh⟩ := inv
  cases a with
  | lock a =>
    simp only [Sys.step]
    split
    · rename_i hp
      right
      refine ⟨_, rfl, ⟨o, hl, ?_, ?_⟩, ?_, ?_, ?_, ?_, ?_, ?_⟩
      case refine_6 => simp only [upd]; (intro h hc; obtain ⟨a', ha'⟩ := caller h (by grind); exact ⟨a', by grind [APC.ref]⟩)
      all_goals simp only [upd]; grind [APC.ref, APC.owns]
    · left; rfl
  | acquire a =>
    simp only [Sys.step]
    split
    · rename_i hp hlk
      right
      refine ⟨_, rfl, ⟨some (.agent a), by simp, ?_, ?_⟩, ?_, ?_, ?_, ?_, ?_, ?_⟩
      case refine_6 => simp only [upd]; (intro h hc; obtain ⟨a', ha'⟩ := caller h (by grind); exact ⟨a', by grind [APC.ref]⟩)
      all_goals simp only [upd]; grind [APC.ref, APC.owns]
    · left; rfl
  | unlock a =>
    simp only [Sys.step]
    split
    · rename_i hp
      have hlk : s.locked = true := by grind [APC.owns]
      rw [if_pos hlk]
      right
      refine ⟨_, rfl, ⟨none, by simp, ?_, ?_⟩, ?_, ?_, ?_, ?_, ?_, ?_⟩
      case refine_6 => simp only [upd]; (intro h hc; obtain ⟨a', ha'⟩ := caller h (by grind); exact ⟨a', by grind [APC.ref]⟩)
      all_goals simp only [upd]; grind [APC.ref, APC.owns]
    · left; rfl
  | «try» a =>
    simp only [Sys.step]
    split
    · rename_i hp
      have hb : ∀ a h, (s.agents a).ref = some h → h < s.nh := by
        intro a h hr; cases hq : s.agents a <;> rw [hq] at hr <;> simp [APC.ref] at hr <;> grind
      right
      refine ⟨_, rfl, ⟨o, hl, ?_, ?_⟩, ?_, ?_, ?_, ?_, ?_, ?_⟩
      case refine_6 => simp only [upd]; (intro h hc; by_cases hh : h = s.nh; (exact ⟨a, by grind [APC.ref]⟩); (obtain ⟨a', ha'⟩ := caller h (by grind); exact ⟨a', by grind [APC.ref]⟩))
      all_goals simp only [upd]; grind [APC.ref, APC.owns]
    · left; rfl
  | send a =>
    simp only [Sys.step]
    split
    · rename_i h0 hp
      have hc0 := (sel a h0 hp).2.1
      rw [if_neg (by rw [hc0]; decide)]
      split
      · rename_i hpc
        right
        refine ⟨_, rfl, ⟨some (.agent a), by simp; grind, ?_, ?_⟩, ?_, ?_, ?_, ?_, ?_, ?_⟩
        case refine_6 => simp only [upd]; (intro h hc; obtain ⟨a', ha'⟩ := caller h (by grind); exact ⟨a', by grind [APC.ref]⟩)
        all_goals simp only [upd]; grind [APC.ref, APC.owns]
      · left; rfl
    · left; rfl
  | timeout a =>
    simp only [Sys.step]
    split
    · rename_i h0 hp
      right
      refine ⟨_, rfl, ⟨o, hl, ?_, ?_⟩, ?_, ?_, ?_, ?_, ?_, ?_⟩
      case refine_6 => simp only [upd]; (intro h hc; obtain ⟨a', ha'⟩ := caller h (by grind); exact ⟨a', by grind [APC.ref]⟩)
      all_goals simp only [upd]; grind [APC.ref, APC.owns]
    · left; rfl
  | close a =>
    simp only [Sys.step]
    split
    · rename_i h0 r hp
      have hc0 := (clo a h0 r hp).2.1
      rw [if_neg (by rw [hc0]; decide)]
      right
      refine ⟨_, rfl, ⟨o, hl, ?_, ?_⟩, ?_, ?_, ?_, ?_, ?_, ?_⟩
      case refine_6 => simp only [upd]; (intro h hc; obtain ⟨a', ha'⟩ := caller h (by grind); exact ⟨a', by grind [APC.ref]⟩)
      all_goals simp only [upd]; cases r <;> grind [APC.ref, APC.owns]
    · left; rfl
  | hacquire h0 =>
    simp only [Sys.step]
    split
    · rename_i hp hlk
      right
      refine ⟨_, rfl, ⟨some (.helper h0), by simp, ?_, ?_⟩, ?_, ?_, ?_, ?_, ?_, ?_⟩
      case refine_6 => simp only [upd]; (intro h hc; obtain ⟨a', ha'⟩ := caller h (by grind); exact ⟨a', by grind [APC.ref]⟩)
      all_goals simp only [upd]; grind [APC.ref, APC.owns]
    · left; rfl
  | hclosed h0 =>
    simp only [Sys.step]
    split
    · rename_i hp hcl
      right
      refine ⟨_, rfl, ⟨o, hl, ?_, ?_⟩, ?_, ?_, ?_, ?_, ?_, ?_⟩
      case refine_6 => simp only [upd]; (intro h hc; obtain ⟨a', ha'⟩ := caller h (by grind); exact ⟨a', by grind [APC.ref]⟩)
      all_goals simp only [upd]; grind [APC.ref, APC.owns]
    · left; rfl
  | hunlock h0 =>
    simp only [Sys.step]
    split
    · rename_i hp
      have hlk : s.locked = true := by grind [APC.owns]
      rw [if_pos hlk]
      right
      refine ⟨_, rfl, ⟨none, by simp, ?_, ?_⟩, ?_, ?_, ?_, ?_, ?_, ?_⟩
      case refine_6 => simp only [upd]; (intro h hc; obtain ⟨a', ha'⟩ := caller h (by grind); exact ⟨a', by grind [APC.ref]⟩)
      all_goals simp only [upd]; grind [APC.ref, APC.owns]
    · left; rfl
  | hexit h0 =>
    simp only [Sys.step]
    split
    · rename_i hp
      right
      refine ⟨_, rfl, ⟨o, hl, ?_, ?_⟩, ?_, ?_, ?_, ?_, ?_, ?_⟩
      case refine_6 => simp only [upd]; (intro h hc; obtain ⟨a', ha'⟩ := caller h (by grind); exact ⟨a', by grind [APC.ref]⟩)
      all_goals simp only [upd]; grind [APC.ref, APC.owns]
    · left; rfl

theorem exec_inv (as : List Act) : ∀ s, Inv s → s.exec as = .error .disabled ∨ ∃ s', s.exec as = .ok s' ∧ Inv s' := by
  induction as with
  | nil => intro s inv; right; exact ⟨s, rfl, inv⟩
  | cons a as ih =>
    intro s inv
    simp only [Sys.exec]
    rcases step_inv s inv a with h | ⟨s1, h, inv1⟩
    · left; rw [h]
    · rw [h]; exact ih s1 inv1

theorem reach_inv {as : List Act} {s : Sys} (h : Sys.init.exec as = .ok s) : Inv s := by
  rcases exec_inv as _ inv_init with h' | ⟨s', h', inv⟩
  · rw [h'] at h; cases h
  · rw [h'] at h; injection h with h; rwa [h] at inv

theorem owns_iff (s : Sys) (a : Nat) : (s.agents a).owns = true ↔ s.holding (.agent a) := by
  simp only [Sys.holding]
  cases h : s.agents a with
  | closing h' r => cases r <;> simp [APC.owns]
  | _ => simp [APC.owns]

end Verif.Sync

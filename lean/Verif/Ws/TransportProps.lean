import Verif.Ws.Transport
import Verif.Enc.JsonProps
import Verif.Enc.TypedProps
/-!
# Messages over a websocket arrive whole (C126)
-/
set_option autoImplicit false
namespace Verif.Ws.Transport
open Verif.Strconv Verif.Enc

/-- What a peer may send (RFC 6455): messages, in one or more fragments, and control frames. -/
inductive Item where
  | msg (bin : Bool) (first : Str) (more : List Str)
  | ping (payload : Str)
  | pong (payload : Str)
  | close (payload : Str)

/-- Continuation frames; the last one says so. -/
def contFrames : List Str → List WFrame
  | [] => []
  | [p] => [⟨.cont, true, p⟩]
  | p :: l => ⟨.cont, false, p⟩ :: contFrames l

def Item.frames : Item → List WFrame
  | .msg bin first more => ⟨if bin then .bin else .text, more.isEmpty, first⟩ :: contFrames more
  | .ping p => [⟨.ping, true, p⟩]
  | .pong p => [⟨.pong, true, p⟩]
  | .close p => [⟨.close, true, p⟩]

/-- The nodes a peer means to send: the whole text of each message, until the connection is closed or a text is no JSON. -/
def meant {X : Ext} : List Item → List (Option (Node X))
  | [] => []
  | .msg _ first more :: l => match decode (first ++ more.flatten) with
    | some n => n :: meant l
    | none => []
  | .ping _ :: l => meant l
  | .pong _ :: l => meant l
  | .close _ :: _ => []

def wire (l : List Item) : List WFrame := l.flatMap Item.frames

/-- Neither a fragmented message nor a ping or pong. -/
def Item.simple : Item → Prop
  | .msg _ _ more => more = []
  | .ping _ => False
  | .pong _ => False
  | .close _ => True

/-- **C126.** Messages in one frame arrive, each once, in order, up to the first that is no JSON or the end; the program goes on. -/
theorem C126_whole_partial {X : Ext} (l : List Item) (h : ∀ i ∈ l, i.simple) : readLoop (X := X) (wire l) = (meant l, .returned) := by
  induction l with
  | nil => rfl
  | cons i l ih =>
    have hi := h i (by simp)
    have ih := ih fun j hj => h j (by simp [hj])
    cases i with
    | ping p => exact hi.elim
    | pong p => exact hi.elim
    | close p => rfl
    | msg bin first more =>
      have hm : more = [] := hi
      subst hm
      have hw : wire (Item.msg bin first [] :: l) = ⟨if bin then .bin else .text, true, first⟩ :: wire l := rfl
      have hr : read (X := X) (⟨if bin then .bin else .text, true, first⟩ :: wire l) = match decode first with | some n => .node n | none => .err := by
        cases bin <;> rfl
      rw [hw]
      simp only [readLoop, hr, meant, List.flatten_nil, List.append_nil]
      cases decode (X := X) first with
      | none => rfl
      | some n => simp only [ih]

/-- **C126.** What one side writes, the other reads: the nodes as JSON makes them. -/
theorem C126_write_partial {X : Ext} (hX : Laws X) (l : List (Node X)) (h : ∀ n ∈ l, n.WF ∧ n.encodable = true ∧ n.depth ≤ maxDepth) :
    ∃ fs, writeAll l = .ok fs ∧ readLoop (X := X) fs = (l.map fun n => some n.norm, .returned) := by
  induction l with
  | nil => exact ⟨[], rfl, rfl⟩
  | cons n l ih =>
    obtain ⟨fs, h1, h2⟩ := ih fun m hm => h m (by simp [hm])
    obtain ⟨hwf, he, hd⟩ := h n (by simp)
    have hen : encode n = .ok n.text := by unfold encode; rw [if_pos he]
    have hdec := C39_round_trip hX n hwf n.text hen hd
    refine ⟨⟨.text, true, n.text⟩ :: fs, ?_, ?_⟩
    · simp only [writeAll, write, hen, h1]
    · simp only [readLoop, read, hdec, h2, List.map_cons]

/-- **C126, violated.** Of a message in fragments, the first one is taken for the message; whatever follows on the connection is lost. -/
theorem C126_fragment_violated {X : Ext} (bin : Bool) (first second : Str) (more : List Str) (l : List Item) :
    readLoop (X := X) (wire (.msg bin first (second :: more) :: l)) = ((match decode first with | some n => [n] | none => []), .returned) := by
  have hw : ∃ fs, wire (.msg bin first (second :: more) :: l) = ⟨if bin then .bin else .text, false, first⟩ :: ⟨.cont, more.isEmpty, second⟩ :: fs := by
    cases more with
    | nil => exact ⟨_, rfl⟩
    | cons p more => exact ⟨_, rfl⟩
  obtain ⟨fs, hw⟩ := hw
  rw [hw]
  have hc : readLoop (X := X) (⟨.cont, more.isEmpty, second⟩ :: fs) = ([], .returned) := rfl
  have hr : read (X := X) (⟨if bin then .bin else .text, false, first⟩ :: ⟨.cont, more.isEmpty, second⟩ :: fs) = match decode first with | some n => .node n | none => .err := by
    cases bin <;> rfl
  obtain ⟨g, hg⟩ : ∃ g, (⟨.cont, more.isEmpty, second⟩ :: fs : List WFrame) = g := ⟨_, rfl⟩
  rw [hg] at hc hr ⊢
  simp only [readLoop, hr]
  cases decode (X := X) first with
  | none => rfl
  | some n => simp only [hc]

/-- So the number 12 may arrive as 1. -/
theorem C126_wrong_violated : ¬ ∀ l : List Item, (∀ i ∈ l, match i with | .msg .. => True | _ => False) → (readLoop (X := XT) (wire l)).1 = meant l := by
  intro h
  have := h [.msg false (lit "1") [lit "2"]] (by simp)
  revert this
  decide +kernel

/-- **C126, violated.** A ping or pong, which every peer may send at any time, ends the program. -/
theorem C126_ping_violated {X : Ext} (l m : List Item) (p : Str) (i : Item) (hi : i = .ping p ∨ i = .pong p) (hl : ∀ i ∈ l, ∃ b f n, i = .msg b f [] ∧ decode (X := X) f = some n) :
    (readLoop (X := X) (wire (l ++ i :: m))).2 = .crashed := by
  induction l with
  | nil => rcases hi with rfl | rfl <;> rfl
  | cons j l ih =>
    have ih := ih fun k hk => hl k (by simp [hk])
    obtain ⟨b, f, n, rfl, hd⟩ := hl j (by simp)
    have hw : wire (Item.msg b f [] :: l ++ i :: m) = ⟨if b then .bin else .text, true, f⟩ :: wire (l ++ i :: m) := rfl
    have hr : read (X := X) (⟨if b then .bin else .text, true, f⟩ :: wire (l ++ i :: m)) = .node n := by
      cases b <;> simp [read, hd]
    rw [hw]
    simp only [readLoop, hr, ih]

example : readLoop (X := XT) (wire [.msg false (lit "{\"a\":1}") [], .msg true (lit "[]") [], .close [], .msg false (lit "2") []]) =
    ([some (.map [(lit "a", .digits (lit "1"))]), some (.list [])], .returned) := by decide +kernel

end Verif.Ws.Transport

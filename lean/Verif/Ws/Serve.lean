import Verif.Ws.Loop
/-!
# The life of a server side connection (http/ws/handler.go L27-104, ws.go L123-129)

The handlers of `Handler.Server` and `RpcHandler.Server`, with their deferred calls, on top of the loop (`Ws/Loop.lean`). External, as `x/net/websocket` has it: `WriteClose` writes a close
frame; `Conn.Close` writes another one, with status 1000, and closes the transport whether or not it could be written; the server closes the transport when the handler is done
(`defer rwc.Close()` in `serveWebSocket`), also if it panics; `net/http` recovers the panic. Writing to a closed transport fails; writing to an open one may fail at any time.
Writers in other goroutines are in `Ws/Writers.lean` (C133). The log is left out.
-/
set_option autoImplicit false
namespace Verif.Ws.Serve

/-! ### the connection -/

/-- What the peer is sent: a message, or a close frame and its status. ws.go L47-60, L124. -/
inductive Frame where
  | data
  | close (status : Nat)
deriving DecidableEq

/-- The transport: whether it is open, what was sent, and how many writes were tried (the failure of a write depends on it). ws.go L32-35. -/
structure Wire where
  isOpen : Bool := true
  sent : List Frame := []
  tries : Nat := 0

/-- A frame is written, if it can be. `ok n` tells if the `n`-th write works. ws.go L47-60 (`write`), L124 (`WriteClose`). -/
def Wire.write (ok : Nat → Bool) (w : Wire) (f : Frame) : Wire × Bool :=
  if w.isOpen && ok w.tries then ({ w with sent := w.sent ++ [f], tries := w.tries + 1 }, true) else ({ w with tries := w.tries + 1 }, false)

/-- `wsImpl.Close`. ws.go L123-129; the status is written as two bytes. -/
def Wire.close (ok : Nat → Bool) (w : Wire) (status : Nat) : Wire :=
  match w.write ok (.close (status % 65536)) with
  | (w, false) => w
  | (w, true) => { (w.write ok (.close 1000)).1 with isOpen := false }

/-- What is done to the connection: `Send` (conn.go L72-74), `Close` (conn.go L21-23), the transport closed by x/net. -/
inductive Op where
  | send
  | close (status : Nat)
  | drop
deriving DecidableEq

/-- conn.go L21-23, L72-74. -/
def Wire.op (ok : Nat → Bool) (w : Wire) : Op → Wire
  | .send => (w.write ok .data).1
  | .close st => w.close ok st
  | .drop => { w with isOpen := false }

/-! ### functions with deferred calls -/

/-- What a handler does, as seen from outside. handler.go L32-60, L79-92. -/
inductive Ev (N : Type) where
  /-- `shutdown.Hold()`, `Release()` (L37, L85) -/
  | hold | release
  /-- `cf(nil)` (L35, L83) -/
  | cancel
  /-- `OnConnect` is called (L52) -/
  | connect
  /-- an event of the loop -/
  | loop (e : Ws.Ev N)
  | op (o : Op)
deriving DecidableEq

/-- How a statement or function goes on: to the next, or returning, or panicking. -/
inductive Out where
  | next | ret | panic
deriving DecidableEq

/-- A statement: a deferred call, or something that shows events. Go: `defer`. -/
inductive Stmt (N : Type) where
  | defer_ (es : List (Ev N))
  | exec (es : List (Ev N)) (o : Out)

/-- A function: its statements until one returns or panics, then the deferred calls, the last first. -/
def body {N : Type} : List (Stmt N) → List (Ev N) × Out
  | [] => ([], .ret)
  | .defer_ es :: l => let r := body l; (r.1 ++ es, r.2)
  | .exec es .next :: l => let r := body l; (es ++ r.1, r.2)
  | .exec es o :: _ => (es, o)

/-! ### the handlers -/

/-- How `OnConnect` ends: with a context, with the nil context and no error, with an error, or panicking. handler.go L52. -/
inductive ConnRes where
  | ok | nil | err | panic
deriving DecidableEq

section
variable {N σ : Type}

/-- What a handler of messages does to the connection in each state of the application: handler.go L46-48, conn.go L59. -/
abbrev Does (N σ : Type) := σ → N → List Op

/-- The events of the loop with what it, and the application's handler, do to the connection. conn.go L50-68. -/
def loopEvs (h : σ → N → σ × HRes) (f : Does N σ) : σ → List (Ws.Ev N) → List (Ev N)
  | _, [] => []
  | a, .begin n :: l => .loop (.begin n) :: (f a n).map .op ++ loopEvs h f (h a n).1 l
  | a, .disconnect :: l => .loop .disconnect :: .op .send :: loopEvs h f a l
  | a, .close :: l => .loop .close :: .op (.close 1000) :: loopEvs h f a l
  | a, e :: l => .loop e :: loopEvs h f a l

/-- The loop panics if the handler does. conn.go L59. -/
def loopOut (tr : List (Ws.Ev N)) : Out :=
  if tr.any (fun e => match e with | .finish _ .panic => true | _ => false) then .panic else .next

/-- `defer ws.Close(c, 1000); err := ws.Loop(c)` (handler.go L58-59, L89-90): `tr` is what the loop does. With the nil context the loop panics when it asks for `c.Done()`; its own deferred
`Close` was noted before (conn.go L50-54). -/
def loopStmts (h : σ → N → σ × HRes) (f : Does N σ) (a : σ) (nilCtx : Bool) (tr : List (Ws.Ev N)) : List (Stmt N) :=
  [.defer_ [.op (.close 1000)],
   if nilCtx then .exec [.op (.close 1000)] .panic else .exec (loopEvs h f a tr) (loopOut tr)]

/-- The handler of `Handler.Server` (handler.go L32-60): `onConnect` is what `OnConnect` does to the connection and how it ends. -/
def handlerStmts (h : σ → N → σ × HRes) (f : Does N σ) (a : σ) (onConnect : Option (List Op × ConnRes)) (tr : List (Ws.Ev N)) : List (Stmt N) :=
  [.defer_ [.cancel], .exec [.hold] .next, .defer_ [.release]] ++
  match onConnect with
  | none => loopStmts h f a false tr
  | some (ops, .ok) => .exec (.connect :: ops.map .op) .next :: loopStmts h f a false tr
  | some (ops, .nil) => .exec (.connect :: ops.map .op) .next :: loopStmts h f a true tr
  | some (ops, .err) => [.exec (.connect :: ops.map .op) .ret]
  | some (ops, .panic) => [.exec (.connect :: ops.map .op) .panic]

/-- The handler of `RpcHandler.Server` (handler.go L79-92). -/
def rpcStmts (h : σ → N → σ × HRes) (f : Does N σ) (a : σ) (tr : List (Ws.Ev N)) : List (Stmt N) :=
  [.defer_ [.cancel], .exec [.hold] .next, .defer_ [.release]] ++ loopStmts h f a false tr

/-- What x/net's server makes of a handler: `defer rwc.Close()`. External. -/
def served (l : List (Stmt N)) : List (Ev N) × Out := body (.defer_ [.op .drop] :: [.exec (body l).1 (body l).2])

/-- What is done to the connection. -/
def opsOf : List (Ev N) → List Op
  | [] => []
  | .op o :: l => o :: opsOf l
  | _ :: l => opsOf l

/-- The connection after what was done. -/
def wireOf (ok : Nat → Bool) (es : List (Ev N)) : Wire := (opsOf es).foldl (Wire.op ok) {}

/-- The counter of the shutdown after these events (`C32`). shutdown/shutdown.go L35-53. -/
def count (start : Int) (es : List (Ev N)) : Int := es.foldl (fun n e => match e with | .hold => n + 1 | .release => n - 1 | _ => n) start

/-! ### the handshake -/

/-- `Handshake` (handler.go L65-71, L93-99): is the request accepted? `parse` is `url.ParseRequestURI`; `websocket.Origin` gives no url without the header, and fails if it is not parsed. -/
def handshake {U : Type} (parse : String → Option U) (origin : Option String) : Bool :=
  match origin with
  | none => false
  | some o => if o = "" then false else (parse o).isSome

end

/-! ### lemmas -/

section
variable {N σ : Type}

theorem body_append (l m : List (Stmt N)) (h : ∀ st ∈ l, ∀ es, ∀ o, st = .exec es o → o = .next) :
    (body (l ++ m)).2 = (body m).2 := by
  induction l with
  | nil => rfl
  | cons st l ih =>
    have ih := ih (fun st hs => h st (List.mem_cons_of_mem _ hs))
    cases st with
    | defer_ es => simpa [body] using ih
    | exec es o =>
      have := h _ List.mem_cons_self es o rfl
      subst this
      simpa [body] using ih

theorem opsOf_append (l m : List (Ev N)) : opsOf (l ++ m) = opsOf l ++ opsOf m := by
  induction l with
  | nil => rfl
  | cons e l ih => cases e <;> simp [opsOf, ih]

theorem opsOf_map (l : List Op) : opsOf (l.map (Ev.op (N := N))) = l := by
  induction l with
  | nil => rfl
  | cons e l ih => simp [opsOf, ih]

/-- Neither a hold, nor a release, nor a cancel, nor `OnConnect`. -/
def Inner : Ev N → Prop
  | .loop _ => True
  | .op _ => True
  | _ => False

theorem loopEvs_inner (h : σ → N → σ × HRes) (f : Does N σ) : ∀ (tr : List (Ws.Ev N)) (a : σ), ∀ e ∈ loopEvs h f a tr, Inner e
  | [], a => by simp [loopEvs]
  | .begin n :: l, a => by
    have := loopEvs_inner h f l
    intro e he
    simp only [loopEvs, List.cons_append, List.mem_cons, List.mem_append, List.mem_map] at he
    rcases he with rfl | ⟨o, -, rfl⟩ | he
    · trivial
    · trivial
    · exact this _ e he
  | .finish n r :: l, a => by
    have := loopEvs_inner h f l
    intro e he
    simp only [loopEvs, List.mem_cons] at he
    rcases he with rfl | he
    · trivial
    · exact this _ e he
  | .disconnect :: l, a => by
    have := loopEvs_inner h f l
    intro e he
    simp only [loopEvs, List.mem_cons] at he
    rcases he with rfl | rfl | he
    · trivial
    · trivial
    · exact this _ e he
  | .quit :: l, a => by
    have := loopEvs_inner h f l
    intro e he
    simp only [loopEvs, List.mem_cons] at he
    rcases he with rfl | he
    · trivial
    · exact this _ e he
  | .close :: l, a => by
    have := loopEvs_inner h f l
    intro e he
    simp only [loopEvs, List.mem_cons] at he
    rcases he with rfl | rfl | he
    · trivial
    · trivial
    · exact this _ e he

theorem loopStmts_inner (h : σ → N → σ × HRes) (f : Does N σ) (a : σ) (b : Bool) (tr : List (Ws.Ev N)) : ∀ e ∈ (body (loopStmts h f a b tr)).1, Inner e := by
  intro e he
  cases b with
  | true =>
    simp only [loopStmts, if_true, body, List.cons_append, List.nil_append, List.mem_cons, List.not_mem_nil, or_false] at he
    rcases he with rfl | rfl <;> trivial
  | false =>
    have hx := loopEvs_inner h f tr a
    simp only [loopStmts, Bool.false_eq_true, if_false] at he
    cases ho : loopOut tr <;> rw [ho] at he <;> simp only [body, List.append_nil, List.mem_append, List.mem_singleton] at he <;>
      rcases he with he | rfl <;> first | exact hx e he | trivial

theorem ops_inner (ops : List Op) : ∀ e ∈ ops.map (Ev.op (N := N)), Inner e := by
  intro e he
  obtain ⟨o, -, rfl⟩ := List.mem_map.1 he
  trivial

/-- The events of the handler: the hold, what is between, the release, the cancel. -/
theorem handler_shape (h : σ → N → σ × HRes) (f : Does N σ) (a : σ) (oc : Option (List Op × ConnRes)) (tr : List (Ws.Ev N)) :
    ∃ es : List (Ev N), (body (handlerStmts h f a oc tr)).1 = .hold :: es ++ [.release, .cancel] ∧ (∀ e ∈ es, Inner e ∨ e = .connect) ∧
      (es = (match oc with
        | none => (body (loopStmts h f a false tr)).1
        | some (ops, .ok) => .connect :: ops.map .op ++ (body (loopStmts h f a false tr)).1
        | some (ops, .nil) => .connect :: ops.map .op ++ (body (loopStmts h f a true tr)).1
        | some (ops, _) => .connect :: ops.map .op)) := by
  refine ⟨_, ?_, ?_, rfl⟩
  · rcases oc with _ | ⟨ops, _ | _ | _ | _⟩ <;> simp [handlerStmts, body]
  · rcases oc with _ | ⟨ops, _ | _ | _ | _⟩ <;> simp only <;> intro e he
    · exact Or.inl (loopStmts_inner h f a false tr e he)
    all_goals
      simp only [List.cons_append, List.mem_cons, List.mem_append] at he
      rcases he with rfl | he
      · exact Or.inr rfl
      first
      | exact Or.inl (ops_inner ops e he)
      | (rcases he with he | he
         · exact Or.inl (ops_inner ops e he)
         · exact Or.inl (loopStmts_inner h f a _ tr e he))

theorem count_inner (es : List (Ev N)) (hi : ∀ e ∈ es, Inner e ∨ e = .connect) : ∀ n : Int, count n es = n := by
  induction es with
  | nil => intro n; rfl
  | cons e es ih =>
    intro n
    have := ih (fun e he => hi e (List.mem_cons_of_mem _ he))
    have h1 := hi e List.mem_cons_self
    cases e <;> simp [Inner] at h1 <;> simpa [count] using this n

end
end Verif.Ws.Serve

import Verif.Ws.Loop
import Verif.Enc.Render
/-!
# RPC over websockets (http/ws/rpc.go, channel.go, handler.go, reflect.go)

A class is a registered template: how a new instance starts, its `Init`, its methods. A method is a function of the instance's state and the frame's data: the unmarshalling of
the argument is part of it (it fails as the method does, reflect.go L74-81). What it does on the connection is a list of replies and closes, its result `nil`, an error, or a
panic. State shared between instances (shallow copies of pointers in the template) is not modelled. An error is given as what `MustMarshal` makes of it and of its text. Method
names are unique (they are Go identifiers with the first letter lowered). Sending on a closed connection does nothing; sending on an open one succeeds; so does closing.
-/
set_option autoImplicit false
namespace Verif.Ws
open Verif.Strconv Verif.Enc

/-- channel.go L62-72. -/
structure Frame (N : Type) where
  channel : Str
  path : Str
  type : Str
  data : Option N
deriving DecidableEq

/-- What a method does on its connection: `C.Reply` (channel.go L79-85), `C.Close` (L97-99). -/
inductive Act (N : Type) where
  | reply (path : Str) (data : N)
  | close

/-- How it ends; an error marshals as `val`, its text as `text`. reflect.go L70-95. -/
inductive MRes (N : Type) where
  | ok
  | err (val text : N)
  | panic

/-- A method's run. reflect.go L70-95. -/
structure Outcome (S N : Type) where
  st : S
  acts : List (Act N)
  res : MRes N

/-- A method (reflect.go L70-95): of the state and the data, which may be missing. -/
abbrev Method (S N : Type) := S → Option N → Outcome S N

/-- A registered template (reflect.go L14-20): the state of a new instance with the template's fields set, or none if setting one of them panics (L25-28); `Init`; the other methods. -/
structure Class (S N : Type) where
  fresh : Option S
  init : Option (Method S N)
  methods : List (Str × Method S N)

/-- A channel (channel.go L12-16): without methods, or bound to the methods of an instance. -/
inductive Chan (S N : Type) where
  | unbound
  | bound (methods : List (Str × Method S N)) (st : S)

/-- A connection (rpc.go L12-16), and what was sent on it. -/
structure Conn (S N : Type) where
  chans : List (Str × Chan S N) := []
  out : List (Frame N) := []
  closed : Bool := false

/-- The registered templates by name (handler.go L17-19, L120). -/
abbrev Registry (S N : Type) := List (Str × Class S N)

section
variable {S N : Type}

/-- conn.go L71-73. -/
def Conn.send (c : Conn S N) (f : Frame N) : Conn S N := if c.closed then c else { c with out := c.out ++ [f] }

/-- conn.go L21-23. -/
def Conn.close (c : Conn S N) : Conn S N := { c with closed := true }

/-- Setting `byChan[id]`. rpc.go L36-58. -/
def Conn.store (c : Conn S N) (id : Str) (ch : Chan S N) : Conn S N := { c with chans := insertKey id ch c.chans }

/-- channel.go L79-99. -/
def Conn.act (id : Str) (c : Conn S N) : Act N → Conn S N
  | .reply p d => c.send { channel := id, path := p, type := [], data := some d }
  | .close => c.close

/-- What a method does on the connection (channel.go L79-99). -/
def Conn.acts (id : Str) (c : Conn S N) (l : List (Act N)) : Conn S N := l.foldl (Conn.act id) c

/-- `Channel.onData` with the functions `build` made (channel.go L28-60, reflect.go L41-58). -/
def onData (c : Conn S N) (id : Str) (f : Frame N) : Chan S N → Conn S N × HRes
  | .unbound => (c, .err)
  | .bound ms st =>
    match lookupKey f.path ms with
    | none => (c, .err)
    | some m =>
      let o := m st f.data
      let c := (c.acts id o.acts).store id (.bound ms o.st)
      match o.res with
      | .ok => (c.send { channel := id, path := f.path, type := lit "return", data := none }, .ok)
      | .err v t =>
        ((c.send { channel := id, path := f.path, type := lit "return", data := some v }).send { channel := id, path := [], type := lit "error", data := some t }, .ok)
      | .panic => (c, .err)

/-- The function registered for a template, with `build` (handler.go L120-134, reflect.go L23-62). -/
def openChan (k : Class S N) (c : Conn S N) (f : Frame N) : Conn S N × HRes :=
  let c := c.store f.channel .unbound
  match k.fresh with
  | none => (c, .panic)
  | some s =>
    match k.init with
    | none => (c.store f.channel (.bound k.methods s), .ok)
    | some i =>
      let o := i s f.data
      let c := c.acts f.channel o.acts
      match o.res with
      | .ok => (c.store f.channel (.bound k.methods o.st), .ok)
      | .err _ _ => (c, .ok)
      | .panic => (c, .panic)

/-- `onFrame` (rpc.go L36-58). -/
def onFrame (reg : Registry S N) (c : Conn S N) (f : Frame N) : Conn S N × HRes :=
  if f.type = lit "close" then (c.close, .ok)
  else if f.type = lit "new" ∨ f.type = lit "open" then
    match lookupKey f.path reg with
    | some k => openChan k c f
    | none => (c, .err)
  else
    match lookupKey f.channel c.chans with
    | some ch => onData c f.channel f ch
    | none => (c, .err)

/-- `onData` of the connection (rpc.go L25-32): what can not be read as a frame is an error. -/
def onNode (reg : Registry S N) (c : Conn S N) : Option (Frame N) → Conn S N × HRes
  | none => (c, .err)
  | some f => onFrame reg c f

/-- Handling frames one after the other until one fails: what the loop does (Loop.lean, `handleAll`). conn.go L52-69. -/
def runFrames (reg : Registry S N) : Conn S N → List (Frame N) → Conn S N × HRes
  | c, [] => (c, .ok)
  | c, f :: l =>
    match onFrame reg c f with
    | (c, .ok) => runFrames reg c l
    | r => r

/-! ### specification: a channel on its own -/

/-- What a channel does on the connection. channel.go L19-26, L79-99. -/
inductive Eff (N : Type) where
  | send (f : Frame N)
  | close

/-- The effect of one of the things a method does (channel.go L79-99). -/
def Act.eff (id : Str) : Act N → Eff N
  | .reply p d => .send { channel := id, path := p, type := [], data := some d }
  | .close => .close

/-- A channel that gets a frame which is not a close: what becomes of it, what it does, and how it ends. channel.go L28-60. -/
def chanStep (reg : Registry S N) (cur : Option (Chan S N)) (f : Frame N) : Option (Chan S N) × List (Eff N) × HRes :=
  if f.type = lit "new" ∨ f.type = lit "open" then
    match lookupKey f.path reg with
    | none => (cur, [], .err)
    | some { fresh := none, init := _, methods := _ } => (some .unbound, [], .panic)
    | some { fresh := some s, init := none, methods } => (some (.bound methods s), [], .ok)
    | some { fresh := some s, init := some i, methods } =>
      match i s f.data with
      | ⟨s', as, .ok⟩ => (some (.bound methods s'), as.map (Act.eff f.channel), .ok)
      | ⟨_, as, .err _ _⟩ => (some .unbound, as.map (Act.eff f.channel), .ok)
      | ⟨_, as, .panic⟩ => (some .unbound, as.map (Act.eff f.channel), .panic)
  else
    match cur with
    | some (.bound ms st) =>
      match lookupKey f.path ms with
      | none => (cur, [], .err)
      | some m =>
        match m st f.data with
        | ⟨s', as, .ok⟩ => (some (.bound ms s'), as.map (Act.eff f.channel) ++ [.send ⟨f.channel, f.path, lit "return", none⟩], .ok)
        | ⟨s', as, .err v t⟩ => (some (.bound ms s'), as.map (Act.eff f.channel) ++ [.send ⟨f.channel, f.path, lit "return", some v⟩, .send ⟨f.channel, [], lit "error", some t⟩], .ok)
        | ⟨s', as, .panic⟩ => (some (.bound ms s'), as.map (Act.eff f.channel), .err)
    | _ => (cur, [], .err)

/-- The frames that get out: those before the first close. channel.go L79-99. -/
def effOut : Bool → List (Eff N) → List (Frame N)
  | true, _ => []
  | false, [] => []
  | false, .send f :: l => f :: effOut false l
  | false, .close :: _ => []

/-- Whether the connection gets closed (channel.go L79-99). -/
def effCloses (l : List (Eff N)) : Bool := l.any fun e => match e with | .close => true | .send _ => false

/-! ### lemmas -/

theorem acts_spec (id : Str) (as : List (Act N)) : ∀ c : Conn S N,
    c.acts id as = { chans := c.chans, out := c.out ++ effOut c.closed (as.map (Act.eff id)), closed := c.closed || effCloses (as.map (Act.eff id)) } := by
  induction as with
  | nil => intro c; rcases c with ⟨a, b, _ | _⟩ <;> simp [Conn.acts, effOut, effCloses]
  | cons a as ih =>
    intro c
    have : c.acts id (a :: as) = (c.act id a).acts id as := rfl
    rw [this, ih]
    rcases c with ⟨ch, o, _ | _⟩ <;> cases a <;> simp [Conn.act, Conn.send, Conn.close, Act.eff, effOut, effCloses]

theorem effOut_append (b : Bool) (l m : List (Eff N)) : effOut b (l ++ m) = effOut b l ++ effOut (b || effCloses l) m := by
  induction l with
  | nil => cases b <;> simp [effOut, effCloses]
  | cons e l ih => cases b <;> cases e <;> simp_all [effOut, effCloses]

theorem effCloses_append (l m : List (Eff N)) : effCloses (l ++ m) = (effCloses l || effCloses m) := by simp [effCloses]

/-- What a channel does, done to the connection. channel.go L79-99. -/
def Conn.apply (c : Conn S N) (es : List (Eff N)) : Conn S N := { c with out := c.out ++ effOut c.closed es, closed := c.closed || effCloses es }

theorem Conn.send_eq (c : Conn S N) (f : Frame N) : c.send f = c.apply [.send f] := by
  rcases c with ⟨a, b, _ | _⟩ <;> simp [Conn.send, Conn.apply, effOut, effCloses]

theorem Conn.acts_eq (c : Conn S N) (id : Str) (as : List (Act N)) : c.acts id as = c.apply (as.map (Act.eff id)) := acts_spec id as c

theorem Conn.apply_append (c : Conn S N) (l m : List (Eff N)) : (c.apply l).apply m = c.apply (l ++ m) := by
  simp [Conn.apply, effOut_append, effCloses_append, Bool.or_assoc]

theorem Conn.apply_store (c : Conn S N) (id : Str) (ch : Chan S N) (l : List (Eff N)) : (c.apply l).store id ch = (c.store id ch).apply l := rfl

end
end Verif.Ws

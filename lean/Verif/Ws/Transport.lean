import Verif.Enc.Json
/-!
# /repo/http/ws/ws.go L35-121: messages over `x/net/websocket`

A connection delivers frames; `NewFrameReader` gives one frame at a time with its opcode, and does not look at the FIN bit. Payloads are texts (`Str`), as for `Decode`; masks and
lengths are the library's. The end of the list of frames is the end of the connection.
-/
set_option autoImplicit false
namespace Verif.Ws.Transport
open Verif.Strconv Verif.Enc

/-- Opcodes (RFC 6455, 5.2); ws.go L86-110. -/
inductive Op where
  | cont | text | bin | close | ping | pong | reserved
deriving DecidableEq

/-- A frame: opcode, whether it is the last of its message, and its payload. ws.go L73. -/
structure WFrame where
  op : Op
  fin : Bool
  payload : Str
deriving DecidableEq

/-- What `Read` returns (ws.go L63-69): a node (`none` for the nil node of an empty text), the end of the connection, an error, or a panic. -/
inductive Read (X : Ext) where
  | node (n : Option (Node X))
  | eof
  | err
  | panic

/-- `read` and `Read` (ws.go L63-121) for a context that is not cancelled. -/
def read {X : Ext} : List WFrame → Read X
  | [] => .eof
  | f :: _ => match f.op with
    | .cont => .err
    | .text | .bin => match decode f.payload with
      | some n => .node n
      | none => .err
    | .close => .err
    | .ping | .pong => .panic
    | .reserved => .panic

/-- How the reading goroutine ends: returning, which closes the inbox, or with a panic, which ends the program. conn.go L28-51. -/
inductive End where
  | returned
  | crashed
deriving DecidableEq

/-- The nodes the reading goroutine of `Loop` puts into the inbox, if they are all taken, and how it ends (conn.go L28-51). -/
def readLoop {X : Ext} : List WFrame → List (Option (Node X)) × End
  | [] => ([], .returned)
  | f :: fs => match read (f :: fs) with
    | .node n => let r := readLoop (X := X) fs; (n :: r.1, r.2)
    | .eof | .err => ([], .returned)
    | .panic => ([], .crashed)

/-- `Write` (ws.go L39-60): one text frame. -/
def write {X : Ext} (n : Node X) : Go WFrame :=
  match encode n with
  | .ok s => .ok ⟨.text, true, s⟩
  | .error e => .error e

/-- Nodes written one after the other (ws.go L39-60). -/
def writeAll {X : Ext} : List (Node X) → Go (List WFrame)
  | [] => .ok []
  | n :: l => match write n with
    | .error e => .error e
    | .ok f => match writeAll l with
      | .error e => .error e
      | .ok fs => .ok (f :: fs)

end Verif.Ws.Transport

import Verif.ByteStream.Model
/-!
What the streams are about: the bytes of the messages, and the bytes that were read.
-/
namespace Verif.ByteStream
open Verif.Wire

/-- The bytes of a message. -/
def Ev.bytes : Ev → Bytes
  | .item (.binary d) => d
  | .item (.text d) => d
  | _ => []

/-- The messages that end the stream. -/
def Ev.ends : Ev → Bool
  | .item .close => true
  | .ended => true
  | _ => false

/-- A data message without bytes. -/
def Ev.isEmpty : Ev → Bool
  | .item (.binary []) => true
  | .item (.text []) => true
  | _ => false

def got : Poll → Bytes
  | .ready d => d
  | _ => []

/-- Everything that was read. -/
def allGot (ps : List Poll) : Bytes := (ps.map got).flatten

/-- The bytes of the messages of the browser. -/
def Act.bytes : Act → Bytes
  | .call (.message d) => d
  | _ => []

/-- What a reader that stops at the first read without bytes gets, as `read_to_end` and `FramedRead` do. -/
def untilEof : List Poll → Bytes
  | [] => []
  | .ready [] :: _ => []
  | .ready d :: ps => d ++ untilEof ps
  | .failed :: _ => []
  | .pending _ :: ps => untilEof ps

end Verif.ByteStream

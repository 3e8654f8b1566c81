import Verif.Wire.Model
/-!
Messages as bytes: the two adapters that make a stream of bytes of a connection that carries messages, the WebSocket of a native
node (`citadel_proto/src/proto/misc/native_websocket.rs`) and the WebSocket or DataChannel of a browser
(`citadel_proto/src/proto/misc/wasm_stream.rs`).

The connection below is reliable and ordered. A read has some room in its buffer (`cap`). Simplifications: on the native side
what `poll_next` will answer is a list; errors have no text; in the browser the handlers are set before anything arrives (they
are set in the same turn of the event loop in which the channel opens), and callbacks and polls do not overlap (one thread).
-/
namespace Verif.ByteStream
open Verif.Wire

/-! ### Native -/

/-- `tungstenite::Message`. -/
inductive Msg
  | binary (d : Bytes)
  | text (d : Bytes)
  | close
  /-- `Ping`, `Pong`, `Frame` -/
  | control
  deriving DecidableEq, Repr

/-- What `poll_next` answers. -/
inductive Ev
  | item (m : Msg)
  | fail
  /-- `Poll::Ready(None)` -/
  | ended
  | pending
  deriving DecidableEq, Repr

/-- What `poll_read` answers: the bytes put into the buffer, an error, or that the task has to wait, and whether it was woken at
once. -/
inductive Poll
  | ready (d : Bytes)
  | failed
  | pending (woken : Bool)
  deriving DecidableEq, Repr

/-- `WebSocketByteStream`: `read_buf`, and what `inner` will answer. -/
structure Ws where
  buf : Bytes := []
  inner : List Ev := []
  deriving DecidableEq, Repr

/-- The bytes of a data frame, native_websocket.rs:71-78 and 79-88. -/
def Ws.take (w : Ws) (cap : Nat) (d : Bytes) (rest : List Ev) : Ws × Poll :=
  let n := min cap d.length
  ({ buf := if n < d.length then w.buf ++ d.drop n else w.buf, inner := rest }, .ready (d.take n))

/-- `poll_read`, native_websocket.rs:56-100. -/
def Ws.poll (w : Ws) (cap : Nat) : Ws × Poll :=
  if w.buf ≠ [] then
    let n := min cap w.buf.length
    ({ w with buf := w.buf.drop n }, .ready (w.buf.take n))
  else
    match w.inner with
    | [] => (w, .pending false)
    | .item (.binary d) :: rest => w.take cap d rest
    | .item (.text d) :: rest => w.take cap d rest
    | .item .close :: rest => ({ w with inner := rest }, .ready [])
    | .item .control :: rest => ({ w with inner := rest }, .pending true)
    | .ended :: rest => ({ w with inner := rest }, .ready [])
    | .fail :: rest => ({ w with inner := rest }, .failed)
    | .pending :: rest => ({ w with inner := rest }, .pending false)

/-- Reads one after the other. -/
def Ws.reads (w : Ws) : List Nat → Ws × List Poll
  | [] => (w, [])
  | c :: cs =>
    let (w1, p) := w.poll c
    let (w2, ps) := w1.reads cs
    (w2, p :: ps)

/-- `poll_write`, native_websocket.rs:104-124, when the sink is ready: one binary frame; the whole buffer is reported as written. -/
def write (buf : Bytes) : Msg × Nat := (.binary buf, buf.length)

/-- A writer that offers pieces of its bytes of these sizes, and goes on after the bytes that were reported as written: the
messages, and what is left. -/
def writeAll : List Nat → Bytes → List Msg × Bytes
  | [], b => ([], b)
  | k :: ks, b =>
    let (m, n) := write (b.take k)
    let (ms, r) := writeAll ks (b.drop n)
    (m :: ms, r)

/-! ### Browser -/

/-- What the browser calls. -/
inductive Call
  /-- `onmessage` with an `ArrayBuffer` -/
  | message (d : Bytes)
  /-- `onmessage` with a string -/
  | text (d : Bytes)
  | error
  | close
  deriving DecidableEq, Repr

/-- `WasmStreamState`, and (a ghost) whether the reader waits to be woken. -/
structure Wasm where
  buf : Bytes := []
  waker : Bool := false
  error : Bool := false
  closed : Bool := false
  parked : Bool := false
  deriving DecidableEq, Repr

/-- `read_waker.take()` with `wake()`. -/
def Wasm.wake (w : Wasm) : Wasm := if w.waker then { w with waker := false, parked := false } else w

/-- The closures, wasm_stream.rs:190-229 and 335-370. -/
def Wasm.call (w : Wasm) : Call → Wasm
  | .message d => { w with buf := w.buf ++ d }.wake
  | .text _ => w
  | .error => { w with error := true }.wake
  | .close => { w with closed := true }.wake

/-- `poll_read_from_state`, wasm_stream.rs:45-69. -/
def Wasm.poll (w : Wasm) (cap : Nat) : Wasm × Poll :=
  if w.buf ≠ [] then
    let n := min cap w.buf.length
    ({ w with buf := w.buf.drop n }, .ready (w.buf.take n))
  else if w.closed then (w, .ready [])
  else if w.error then (w, .failed)
  else ({ w with waker := true, parked := true }, .pending false)

/-- `check_write_state`, wasm_stream.rs:72-81, with the send (274-284, 405-415): the message that is sent. -/
def Wasm.write (w : Wasm) (buf : Bytes) : Option Bytes := if w.closed then none else if w.error then none else some buf

inductive Act
  | call (c : Call)
  /-- the reader polls (woken, or for the first time) -/
  | poll (cap : Nat)
  deriving DecidableEq, Repr

def Wasm.run (w : Wasm) : List Act → Wasm × List Poll
  | [] => (w, [])
  | .call c :: as => (w.call c).run as
  | .poll n :: as =>
    let (w1, p) := w.poll n
    let (w2, ps) := w1.run as
    (w2, p :: ps)

end Verif.ByteStream

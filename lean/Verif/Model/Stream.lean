import Verif.Model.LineBuffer
/-!
# Model of the streams: `Stream`, `MockStream`, `BufferedStream`, `Transaction`

`/repo/src/spine/io/stream/`.
-/

namespace Spine

/-- The part of the interface `spn::io::Stream` (`io/stream/stream.hpp`) used by `BufferedStream`:
an object of type `σ` with four virtual functions. -/
structure Stream (σ : Type) where
  /-- `available()` -/
  available : σ → Nat
  /-- `available_for_write()` -/
  availableForWrite : σ → Nat
  /-- `read(uint8_t& value)`: `none` stands for `false` -/
  read : σ → Res (Option Byte × σ)
  /-- `write(const uint8_t value)` -/
  write : σ → Byte → Res (Bool × σ)

/-! ## `MockStream` -/

/-- `MockStream`, `io/stream/implementations/mock.hpp:11-51`: two ring buffers, and the pointers
`_active_in` / `_active_out`, which point to `_stdin` / `_stdout` unless `swapped`. -/
structure Mock where
  stdin : Ring Byte
  stdout : Ring Byte
  swapped : Bool
  deriving DecidableEq, Repr

namespace Mock

/-- `MockStream(cfg)`, `mock.cpp:5-7`. -/
def create (b : Build) (inSize outSize : Nat) : Res Mock := do
  let stdin ← Ring.create b inSize 0
  let stdout ← Ring.create b outSize 0
  return { stdin, stdout, swapped := false }

/-- `*_active_in` -/
def activeIn (m : Mock) : Ring Byte := if m.swapped then m.stdout else m.stdin
/-- `*_active_out` -/
def activeOut (m : Mock) : Ring Byte := if m.swapped then m.stdin else m.stdout
/-- Update `*_active_in` -/
def setIn (m : Mock) (r : Ring Byte) : Mock := if m.swapped then { m with stdout := r } else { m with stdin := r }
/-- Update `*_active_out` -/
def setOut (m : Mock) (r : Ring Byte) : Mock := if m.swapped then { m with stdin := r } else { m with stdout := r }

/-- `swap_streams()`, `mock.cpp:25-29`. The asserted pointers are never null. -/
def swap (m : Mock) : Mock := { m with swapped := !m.swapped }

/-- `write(const uint8_t value)`, `mock.hpp:29`. -/
def write (m : Mock) (v : Byte) : Res (Bool × Mock) := do
  let (d, r) ← m.activeOut.push v false
  return (d, m.setOut r)

/-- `write(const uint8_t* buffer, size_t length)`, `mock.hpp:30`. -/
def writeMany (m : Mock) (vs : List Byte) : Res (Nat × Mock) := do
  let (n, r) ← m.activeOut.pushMany vs false
  return (n, m.setOut r)

/-- `read(uint8_t& value)`, `mock.hpp:33`. -/
def read (m : Mock) : Res (Option Byte × Mock) := do
  let (v, r) ← m.activeIn.pop
  return (v, m.setIn r)

/-- `read(uint8_t* buffer, size_t length)`, `mock.hpp:34`. -/
def readMany (m : Mock) (dst : List Byte) (n : Nat) : Res ((Nat × List Byte) × Mock) := do
  let (x, r) ← m.activeIn.popMany dst n
  return (x, m.setIn r)

/-- `available()`, `mock.hpp:36`. -/
def available (m : Mock) : Nat := m.activeIn.usedSpace
/-- `available_for_write()`, `mock.hpp:37`. -/
def availableForWrite (m : Mock) : Nat := m.activeOut.freeSpace

/-- `inject_bytestream`, `mock.cpp:9-13`. The code returns nothing; the number of bytes written is
returned here to be able to talk about it. -/
def inject (m : Mock) (bytes : List Byte) : Res (Nat × Mock) := do
  let m := m.swap
  let (n, m) ← m.writeMany bytes
  return (n, m.swap)

/-- `extract_bytestream`, `mock.cpp:14-24`. The vector is resized to `available()` zero bytes, read
into, and resized to the number of bytes read. -/
def extract (m : Mock) : Res (List Byte × Mock) := do
  let m := m.swap
  let n := m.available
  let ((k, bytes), m) ← m.readMany (List.replicate n 0) n
  return (bytes.take k, m.swap)

/-- `MockStream` as a `Stream`. -/
def iface : Stream Mock where
  available := available
  availableForWrite := availableForWrite
  read := read
  write := write

end Mock

/-! ## `BufferedStream` -/

/-- `BufferedStream`, `io/stream/buffered_stream.hpp:60-65`. -/
structure BufStream (σ : Type) where
  input : LineBuf
  output : LineBuf
  stream : σ

namespace BufStream

variable {σ : Type}

/-- `BufferedStream(stream, cfg)`, `buffered_stream.cpp:5-7`. -/
def create (b : Build) (stream : σ) (inSize outSize : Nat) (delims : List Byte) : Res (BufStream σ) := do
  let input ← LineBuf.create b inSize delims
  let output ← LineBuf.create b outSize delims
  return { input, output, stream }

/-- `buffered_write(uint8_t value, bool rollover)`, `buffered_stream.cpp:8`; the `bool` of `push` is
converted to a number. -/
def bufferedWrite (s : BufStream σ) (v : Byte) (rollover : Bool) : Res (Nat × BufStream σ) := do
  let (d, ring) ← s.output.ring.push v rollover
  return (if d then 1 else 0, { s with output := { s.output with ring } })

/-- `buffered_write(const char* buffer, size_t length, bool rollover)`, `buffered_stream.cpp:9-11`. -/
def bufferedWriteMany (s : BufStream σ) (vs : List Byte) (rollover : Bool) : Res (Nat × BufStream σ) := do
  let (n, ring) ← s.output.ring.pushMany vs rollover
  return (n, { s with output := { s.output with ring } })

/-- `get_next_line`, `buffered_stream.cpp:17-19`. -/
def getNextLine (s : BufStream σ) (dst : List Byte) (max : Nat) (d : Option Nat) :
    Res ((Nat × List Byte) × BufStream σ) := do
  let (x, input) ← s.input.getNextLine dst max d
  return (x, { s with input })

/-- `drop_next_line`, `buffered_stream.cpp:21-23`. -/
def dropNextLine (s : BufStream σ) (d : Option Nat) : Res (Bool × BufStream σ) := do
  let (x, input) ← s.input.dropNextLine d
  return (x, { s with input })

/-- `output_buffer_drop_last(n)`, `buffered_stream.hpp:57`. -/
def outputDropLast (s : BufStream σ) (n : Nat) : Res (Nat × BufStream σ) := do
  let (k, ring) ← s.output.ring.dropLast n
  return (k, { s with output := { s.output with ring } })

/-- The condition of the early `break` in `pull_in_data`, `buffered_stream.cpp:32-37`. -/
def pullStop (s : BufStream σ) (lastChar : Byte) : Res Bool :=
  if s.input.ring.full then
    if s.input.isDelim lastChar then .ok true
    else if s.input.ring.overrunSpace = 0 then s.input.hasLine
    else .ok false
  else .ok false

/-- The loop of `pull_in_data()`, `buffered_stream.cpp:30-44`. -/
def pullLoop (S : Stream σ) (fuel : Nat) (s : BufStream σ) (lastChar : Byte) (bytesRead : Nat) :
    Res (Nat × BufStream σ) :=
  match fuel with
  | 0 => .error .fuel
  | fuel + 1 => do
    if S.available s.stream = 0 then return (bytesRead, s)
    if ← s.pullStop lastChar then return (bytesRead, s)
    let (v, stream) ← S.read s.stream
    match v with
    | none => return (bytesRead, { s with stream })
    | some c => do
      let (_, ring) ← s.input.ring.push c true
      pullLoop S fuel { s with stream, input := { s.input with ring } } c (bytesRead + 1)

/-- `pull_in_data()`, `buffered_stream.cpp:26-46`, with at most `fuel` evaluations of the loop condition. -/
def pullInData (S : Stream σ) (fuel : Nat) (s : BufStream σ) : Res (Nat × BufStream σ) :=
  s.pullLoop S fuel 0 0

/-- The loop of `push_out_data()`, `buffered_stream.cpp:51-55`. -/
def pushLoop (S : Stream σ) (fuel : Nat) (s : BufStream σ) (bytesWritten : Nat) : Res (Nat × BufStream σ) :=
  match fuel with
  | 0 => .error .fuel
  | fuel + 1 => do
    if S.availableForWrite s.stream = 0 then return (bytesWritten, s)
    let (v, ring) ← s.output.ring.pop
    let s := { s with output := { s.output with ring } }
    match v with
    | none => return (bytesWritten, s)
    | some c => do
      let (ok, stream) ← S.write s.stream c
      let s := { s with stream }
      if !ok then return (bytesWritten, s)
      pushLoop S fuel s (bytesWritten + 1)

/-- `push_out_data()`, `buffered_stream.cpp:48-57`. -/
def pushOutData (S : Stream σ) (fuel : Nat) (s : BufStream σ) : Res (Nat × BufStream σ) :=
  s.pushLoop S fuel 0

end BufStream

/-! ## `Transaction` -/

/-- `Transaction`, `io/stream/transaction.hpp:67-72`. The buffered stream it points to is kept
separately; `attached` says whether `_stream` is non-null. -/
structure Transaction where
  attached : Bool
  /-- `_incoming_line`; `none` is the default constructed (empty) view -/
  incomingLine : Option LineBuf.View
  /-- `_outgoing_queued_bytes` -/
  queued : Nat
  /-- `_is_finalized` -/
  finalized : Bool
  deriving DecidableEq, Repr

namespace Transaction

variable {σ : Type}

/-- Dereferencing `_stream`. -/
def deref (t : Transaction) : Res Unit := if t.attached then .ok () else .error .ub

/-- `Transaction(stream, discovered_length)`, `transaction.cpp:6-13`, called from `new_transaction` with
the discovered length. -/
def open' (b : Build) (s : BufStream σ) (length : Nat) : Res Transaction := do
  spnAssert b (decide (length > 0))
  let view ← s.input.getNextLineView (some length)
  spnAssert b view.isSome
  return { attached := true, incomingLine := view, queued := 0, finalized := false }

/-- `BufferedStream::new_transaction()`, `buffered_stream.cpp:59-63`. -/
def new (b : Build) (s : BufStream σ) : Res (Option Transaction) := do
  let length ← s.input.lengthOfNextLine
  if length > 0 then
    let t ← open' b s length
    return some t
  else return none

/-- `incoming()`, `transaction.cpp:14-17`, followed by reading the characters of the returned view. The view
points into the storage of the input buffer, so what is read depends on the buffer's present state. -/
def incoming (b : Build) (t : Transaction) (s : BufStream σ) : Res (List Byte) := do
  spnAssert b (!t.finalized)
  match t.incomingLine with
  | none => return []
  | some v => s.input.readView v

/-- `outgoing_space_left()`, `transaction.cpp:35`. -/
def spaceLeft (t : Transaction) (s : BufStream σ) : Res Nat := do
  t.deref
  return s.output.ring.freeSpace

/-- `outgoing(char value)`, `transaction.cpp:18-25`. -/
def outgoingChar (b : Build) (t : Transaction) (s : BufStream σ) (v : Byte) :
    Res (Nat × Transaction × BufStream σ) := do
  spnAssert b (!t.finalized)
  let left ← t.spaceLeft s
  spnAssert b (decide (left > 0))
  if left = 0 then return (0, t, s)
  let (n, s) ← s.bufferedWrite v false
  return (n, { t with queued := t.queued + n }, s)

/-- `outgoing(const char* buffer, size_t length)`, `transaction.cpp:26-33`. -/
def outgoing (b : Build) (t : Transaction) (s : BufStream σ) (vs : List Byte) :
    Res (Nat × Transaction × BufStream σ) := do
  spnAssert b (!t.finalized)
  let left ← t.spaceLeft s
  spnAssert b (decide (left > vs.length))
  let length := min left vs.length
  let (n, s) ← s.bufferedWriteMany (vs.take length) false
  return (n, { t with queued := t.queued + n }, s)

/-- `finalize()`, `transaction.cpp:47-55`. -/
def finalize (b : Build) (t : Transaction) (s : BufStream σ) : Res (Transaction × BufStream σ) := do
  spnAssert b (!t.finalized)
  if t.finalized then return (t, s)
  t.deref
  let (_, s) ← s.dropNextLine none
  return ({ t with incomingLine := none, queued := 0, finalized := true }, s)

/-- `commit()`, `transaction.cpp:37-41`. -/
def commit (b : Build) (t : Transaction) (s : BufStream σ) : Res (Transaction × BufStream σ) := do
  spnAssert b (!t.finalized)
  finalize b { t with queued := 0 } s

/-- `undo(n_bytes)`, `transaction.cpp:57-60`. -/
def undo (t : Transaction) (s : BufStream σ) (nBytes : Nat) : Res (BufStream σ) := do
  let nBytes := if nBytes > 0 then min nBytes t.queued else t.queued
  t.deref
  let (_, s) ← s.outputDropLast nBytes
  return s

/-- `abort()`, `transaction.cpp:42-46`. -/
def abort (b : Build) (t : Transaction) (s : BufStream σ) : Res (Transaction × BufStream σ) := do
  spnAssert b (!t.finalized)
  let s ← t.undo s 0
  finalize b t s

/-- `~Transaction()`, `transaction.hpp:32-34`. -/
def destroy (b : Build) (t : Transaction) (s : BufStream σ) : Res (BufStream σ) := do
  if t.finalized then return s
  let (_, s) ← finalize b t s
  return s

/-- `Transaction(Transaction&& other)`, `transaction.hpp:14-19`: the new object and what is left of
`other`. -/
def moveConstruct (other : Transaction) : Transaction × Transaction :=
  (other, { other with attached := false, finalized := true })

/-- `operator=(Transaction&& other)`, `transaction.hpp:21-30`, for distinct objects: the assigned object
and what is left of `other`. The previous contents of the assigned object are forgotten. -/
def moveAssign (_this other : Transaction) : Transaction × Transaction :=
  (other, { other with attached := false, finalized := true })

end Transaction
end Spine

namespace Spine.BufStream

variable {σ : Type}

/-! ## Histories of calls -/

/-- `output_buffer_drop_first(n)`, `buffered_stream.hpp:58`. -/
def outputDropFirst (s : BufStream σ) (n : Nat) : Res (Nat × BufStream σ) := do
  let (k, ring) ← s.output.ring.dropFirst n
  return (k, { s with output := { s.output with ring } })

/-- A call of the public interface, or anything else happening to the underlying stream. A transaction
acts on the buffered stream only through these calls. -/
inductive Op (σ : Type)
  /-- the underlying stream changes its state, e.g. bytes arrive -/
  | env (stream : σ)
  | pull (fuel : Nat)
  | push (fuel : Nat)
  | write (v : Byte) (rollover : Bool)
  | writeMany (vs : List Byte) (rollover : Bool)
  | getNextLine (dst : List Byte) (maxLength : Nat) (d : Option Nat)
  | dropNextLine (d : Option Nat)
  | outputDropLast (n : Nat)
  | outputDropFirst (n : Nat)

/-- One call; only the effect on the object is kept. -/
def step (S : Stream σ) (s : BufStream σ) : Op σ → Res (BufStream σ)
  | .env stream => return { s with stream }
  | .pull fuel => do let (_, s) ← s.pullInData S fuel; return s
  | .push fuel => do let (_, s) ← s.pushOutData S fuel; return s
  | .write v ro => do let (_, s) ← s.bufferedWrite v ro; return s
  | .writeMany vs ro => do let (_, s) ← s.bufferedWriteMany vs ro; return s
  | .getNextLine dst m d => do let (_, s) ← s.getNextLine dst m d; return s
  | .dropNextLine d => do let (_, s) ← s.dropNextLine d; return s
  | .outputDropLast n => do let (_, s) ← s.outputDropLast n; return s
  | .outputDropFirst n => do let (_, s) ← s.outputDropFirst n; return s

/-- A history of calls. -/
def run (S : Stream σ) (s : BufStream σ) : List (Op σ) → Res (BufStream σ)
  | [] => .ok s
  | op :: ops => do
    let s ← s.step S op
    s.run S ops

/-- `s` is a buffered stream with an input buffer of `n` and an output buffer of `m` bytes, after some
history of calls. -/
def Reachable (S : Stream σ) (n m : Nat) (s : BufStream σ) : Prop :=
  ∃ (b : Build) (delims : List Byte) (stream : σ) (s₀ : BufStream σ) (ops : List (Op σ)),
    create b stream n m delims = .ok s₀ ∧ s₀.run S ops = .ok s

end Spine.BufStream

/-! ## Ports: a stream together with its remote side -/

namespace Spine

/-- A stream of the type `σ` and what the remote side does with it. -/
structure Port (σ : Type) where
  stream : Stream σ
  /-- bytes arrive; the number of bytes accepted -/
  inject : σ → List Byte → Res (Nat × σ)
  /-- bytes leave, the number is a wish -/
  extract : σ → Nat → Res (List Byte × σ)

/-- `MockStream` as a port: `inject_bytestream` and `extract_bytestream`, which takes everything. -/
def Mock.port : Port Mock := ⟨Mock.iface, Mock.inject, fun m _ => m.extract⟩

/-- `MockUART`, `mock.hpp:149-170`: every call is passed on to a stream. -/
def mockUart {σ : Type} (S : Stream σ) : Stream σ where
  available := S.available
  availableForWrite := S.availableForWrite
  read := S.read
  write := S.write

/-- The serial port of Arduino below `ArduinoUART` (`::HardwareSerial`, not code of the repository): bytes received, bytes to be sent, with the sizes of these buffers,
and the bytes on the wire since the remote side last looked. -/
structure Serial where
  rx : List Byte
  tx : List Byte
  rxSize : Nat
  txSize : Nat
  wire : List Byte
  deriving DecidableEq, Repr

namespace Serial

/-- A fresh port. -/
def create (rxSize txSize : Nat) : Serial := ⟨[], [], rxSize, txSize, []⟩

/-- `::HardwareSerial::read()`: the next byte or -1. -/
def read (s : Serial) : Int × Serial :=
  match s.rx with
  | [] => (-1, s)
  | x :: rest => (x.toNat, { s with rx := rest })

/-- `::HardwareSerial::write(uint8_t)`: waits for the oldest byte to leave if there is no room. Returns 1. -/
def write (s : Serial) (v : Byte) : Nat × Serial :=
  if s.tx.length < s.txSize then (1, { s with tx := s.tx ++ [v] })
  else (1, { s with wire := s.wire ++ s.tx.take 1, tx := s.tx.drop 1 ++ [v] })

/-- Bytes arrive from the remote side; what does not fit is dropped by the hardware. -/
def inject (s : Serial) (bytes : List Byte) : Res (Nat × Serial) :=
  .ok (min bytes.length (s.rxSize - s.rx.length), { s with rx := s.rx ++ bytes.take (s.rxSize - s.rx.length) })

/-- The hardware sends the `k` oldest bytes, the remote side looks. -/
def extract (s : Serial) (k : Nat) : Res (List Byte × Serial) :=
  .ok (s.wire ++ s.tx.take k, { s with wire := [], tx := s.tx.drop k })

/-- `ArduinoUART`, `arduino.hpp:232-270`: `available` (243-246), `available_for_write` (247-250), `read(uint8_t&)` (255-258), which is always true, and
`write(uint8_t)` (264). -/
def iface : Stream Serial where
  available := fun s => s.rx.length
  availableForWrite := fun s => s.txSize - s.tx.length
  read := fun s => .ok (some (UInt8.ofInt s.read.1), s.read.2)
  write := fun s v => .ok (decide ((s.write v).1 ≠ 0), (s.write v).2)

/-- The port. -/
def port : Port Serial := ⟨iface, inject, extract⟩

end Serial
end Spine

namespace Spine.Device

/-! ## An application on a port

Not code of the repository: a client of a stream, `BufferedStream` and `Transaction`. -/

/-- What happens: the remote side sends or receives bytes, the application calls the buffered stream. -/
inductive Op
  /-- bytes arrive, for the mock stream `mock.inject_bytestream(bytes)` -/
  | inject (bytes : List Byte)
  /-- bytes leave, for the mock stream `mock.extract_bytestream()` -/
  | extract (k : Nat)
  /-- `bs.pull_in_data()` -/
  | pull
  /-- `bs.push_out_data()` -/
  | push
  /-- `if (bs.has_line()) { n = bs.get_next_line(buffer, max_length); use(buffer, n); }` -/
  | poll (dst : List Byte) (maxLength : Nat)
  /-- `bs.buffered_write(bytes)` -/
  | write (bytes : List Byte)
  /-- `if (auto t = bs.new_transaction()) { if (t->outgoing_space_left() > n) t->outgoing(reply, n); t->commit(); }` -/
  | answer (b : Build) (reply : List Byte)

/-- What went in and out. -/
structure Log where
  /-- bytes the port accepted from the remote side -/
  sent : List Byte
  /-- lines the application used, or answered in a transaction -/
  lines : List (List Byte)
  /-- bytes the buffered stream accepted from the application -/
  written : List Byte
  /-- bytes the remote side received -/
  received : List Byte
  /-- number of bytes overwritten in the input buffer, as seen from outside: bytes in the buffer before the
  call of `pull_in_data`, plus bytes it returned as read, minus bytes in the buffer after -/
  lost : Nat

variable {σ : Type}

/-- The line that `get_next_line` would deliver, for the log of an answered line. -/
def nextLine (s : BufStream σ) : Res (List Byte) := do
  let r ← s.getNextLine (List.replicate (s.input.ring.buf.length + 1) 0) (s.input.ring.buf.length + 1) none
  return r.1.2.take r.1.1

/-- The answer to a line. -/
def answer (b : Build) (s : BufStream σ) (g : Log) (t : Transaction) (reply : List Byte) : Res (Log × BufStream σ) := do
  let line ← nextLine s
  let left ← t.spaceLeft s
  if left > reply.length then
    let r ← t.outgoing b s reply
    let c ← r.2.1.commit b r.2.2
    let s ← c.1.destroy b c.2
    return ({ g with lines := g.lines ++ [line], written := g.written ++ reply.take r.1 }, s)
  else
    let c ← t.commit b s
    let s ← c.1.destroy b c.2
    return ({ g with lines := g.lines ++ [line] }, s)

/-- One event. `fuel` bounds the loops of `pull_in_data` and `push_out_data`. -/
def step (P : Port σ) (fuel : Nat) (s : BufStream σ) (g : Log) : Op → Res (Log × BufStream σ)
  | .inject bytes => do
    let (k, stream) ← P.inject s.stream bytes
    return ({ g with sent := g.sent ++ bytes.take k }, { s with stream })
  | .extract k => do
    let (bytes, stream) ← P.extract s.stream k
    return ({ g with received := g.received ++ bytes }, { s with stream })
  | .pull => do
    let before := s.input.ring.usedSpace
    let (k, s) ← s.pullInData P.stream fuel
    return ({ g with lost := g.lost + (before + k - s.input.ring.usedSpace) }, s)
  | .push => do
    let (_, s) ← s.pushOutData P.stream fuel
    return (g, s)
  | .poll dst m => do
    if ← s.input.hasLine then
      let ((k, dst), s) ← s.getNextLine dst m none
      return ({ g with lines := g.lines ++ [dst.take k] }, s)
    else return (g, s)
  | .write bytes => do
    let (k, s) ← s.bufferedWriteMany bytes false
    return ({ g with written := g.written ++ bytes.take k }, s)
  | .answer b reply => do
    match ← Transaction.new b s with
    | none => return (g, s)
    | some t => answer b s g t reply

/-- A history of events. -/
def run (P : Port σ) (fuel : Nat) (s : BufStream σ) (g : Log) : List Op → Res (Log × BufStream σ)
  | [] => .ok (g, s)
  | op :: ops => do
    let (g, s) ← step P fuel s g op
    run P fuel s g ops

/-- A fresh device: a mock stream of `a` and `b` bytes, a buffered stream of `n` and `m` bytes. -/
def create (bld : Build) (a b n m : Nat) (delims : List Byte) : Res (BufStream Mock) := do
  let mock ← Mock.create bld a b
  BufStream.create bld mock n m delims

end Spine.Device

namespace Spine.Transaction

variable {σ : Type}

/-! ## The use of a transaction -/

/-- A piece of the reply. -/
inductive Piece
  /-- `outgoing(char)` -/
  | char (v : Byte)
  /-- `outgoing(buffer, length)` -/
  | str (vs : List Byte)

/-- A reply made of several pieces; the total of the returned numbers. -/
def reply (b : Build) (t : Transaction) (s : BufStream σ) : List Piece → Res (Nat × Transaction × BufStream σ)
  | [] => .ok (0, t, s)
  | .char v :: ps => do
    let (k, t, s) ← t.outgoingChar b s v
    let (k', t, s) ← reply b t s ps
    return (k + k', t, s)
  | .str vs :: ps => do
    let (k, t, s) ← t.outgoing b s vs
    let (k', t, s) ← reply b t s ps
    return (k + k', t, s)

/-- The ways to end a transaction explicitly. -/
inductive End
  | commit
  | abort

/-- A sequence of calls of `commit()` and `abort()`. -/
def ends (b : Build) (t : Transaction) (s : BufStream σ) : List End → Res (Transaction × BufStream σ)
  | [] => .ok (t, s)
  | .commit :: es => do
    let (t, s) ← t.commit b s
    ends b t s es
  | .abort :: es => do
    let (t, s) ← t.abort b s
    ends b t s es

end Spine.Transaction

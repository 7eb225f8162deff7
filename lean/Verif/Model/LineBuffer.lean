import Verif.Model.RingBuffer
/-!
# Model of `spn::structure::LineBuffer`

`/repo/src/spine/structure/linebuffer.hpp`, `linebuffer.cpp`.  Characters are bytes.
-/

namespace Spine

/-- A `char`. -/
abbrev Byte := UInt8

/-- `LineBuffer`, `linebuffer.hpp:10-42`: a `RingBuffer<char>` and the delimiters. -/
structure LineBuf where
  ring : Ring Byte
  /-- `_delimiters` -/
  delims : List Byte
  deriving DecidableEq, Repr

namespace LineBuf

/-- `LineBuffer(capacity, delimiters)`, `linebuffer.cpp:5-6`. -/
def create (b : Build) (capacity : Nat) (delims : List Byte) : Res LineBuf := do
  let ring ← Ring.create b capacity 0
  return { ring, delims }

/-- `_delimiters.find(v) != npos`, `linebuffer.cpp:54`. -/
def isDelim (l : LineBuf) (v : Byte) : Bool := l.delims.contains v

/-- The loop of `length_of_next_line()`, `linebuffer.cpp:49-56`, from index `i`, with `fuel` iterations
left (`fuel = used_space() - i`).  In the loop `length = i + 1` when the delimiter is checked. -/
def lengthLoop (l : LineBuf) (i : Nat) (fuel : Nat) : Res Nat :=
  match fuel with
  | 0 => .ok 0
  | fuel + 1 => do
    match ← l.ring.peekAt i with
    | none => return 0
    | some v => if l.isDelim v then return i + 1 else l.lengthLoop (i + 1) fuel

/-- `length_of_next_line()`, `linebuffer.cpp:45-57`. -/
def lengthOfNextLine (l : LineBuf) : Res Nat := l.lengthLoop 0 l.ring.usedSpace

/-- `has_line()`, `linebuffer.hpp:25`. -/
def hasLine (l : LineBuf) : Res Bool := do
  let n ← l.lengthOfNextLine
  return decide (n > 0)

/-- `discovered_length.value_or(length_of_next_line())`: the argument of `value_or` is evaluated in any
case. -/
def discovered (l : LineBuf) (d : Option Nat) : Res Nat := do
  let n ← l.lengthOfNextLine
  return d.getD n

/-- `push(const std::string_view&)`, `linebuffer.cpp:8`. -/
def pushStr (l : LineBuf) (s : List Byte) : Res (Nat × LineBuf) := do
  let (n, ring) ← l.ring.pushMany s false
  return (n, { l with ring })

/-- `get_next_line(buffer, max_length, discovered_length)`, `linebuffer.cpp:21-31`.  `dst` is the caller's
memory at `buffer`.  Returns the returned number and the caller's memory afterwards. -/
def getNextLine (l : LineBuf) (dst : List Byte) (maxLength : Nat) (d : Option Nat) :
    Res ((Nat × List Byte) × LineBuf) := do
  let length ← l.discovered d
  if length = 0 ∨ length > maxLength then return ((0, dst), l)
  let length := length - 1
  let (dst, ring) ← l.ring.popLoop dst 0 length
  let (_, ring) ← ring.pop
  let dst ← wr dst length 0
  return ((length, dst), { l with ring })

/-- The loop of `drop_next_line`, `linebuffer.cpp:37-40`: `n` pops into a local variable. -/
def dropLoop (r : Ring Byte) (n : Nat) : Res (Ring Byte) :=
  match n with
  | 0 => .ok r
  | n + 1 => do
    let (_, r) ← r.pop
    dropLoop r n

/-- `drop_next_line(discovered_length)`, `linebuffer.cpp:33-43`. -/
def dropNextLine (l : LineBuf) (d : Option Nat) : Res (Bool × LineBuf) := do
  let length ← l.discovered d
  if length = 0 then return (false, l)
  let ring ← dropLoop l.ring (length - 1)
  let (_, ring) ← ring.pop
  return (true, { l with ring })

/-- A `std::string_view` into the buffer's storage. -/
structure View where
  /-- storage position of the first character -/
  start : Nat
  size : Nat
  deriving DecidableEq, Repr

/-- `get_next_line_view(discovered_length)`, `linebuffer.cpp:12-19`. -/
def getNextLineView (l : LineBuf) (d : Option Nat) : Res (Option View) := do
  let length ← l.discovered d
  if length = 0 then return none
  match ← l.ring.peekPtrAt 0 with
  | none => return none
  | some p => return some { start := p, size := length - 1 }

/-- Reading the characters of a view: `size` consecutive characters of the storage. Reading past the end
of the storage is undefined behaviour. -/
def readView (l : LineBuf) (v : View) : Res (List Byte) :=
  if v.start + v.size ≤ l.ring.buf.length then .ok ((l.ring.buf.drop v.start).take v.size) else .error .ub

end LineBuf
end Spine

namespace Spine.LineBuf

/-! ## Histories of calls -/

/-- A call of the public interface with its arguments. -/
inductive Op
  /-- any call inherited from `RingBuffer<char>` -/
  | ring (op : Ring.Op Byte)
  | setDelims (delims : List Byte)
  | getNextLine (dst : List Byte) (maxLength : Nat) (d : Option Nat)
  | dropNextLine (d : Option Nat)
  deriving DecidableEq, Repr

/-- One call; only the effect on the object is kept. -/
def step (l : LineBuf) : Op → Res LineBuf
  | .ring op => do let (_, ring) ← l.ring.step op; return { l with ring }
  | .setDelims delims => return { l with delims }
  | .getNextLine dst m d => do let (_, l) ← l.getNextLine dst m d; return l
  | .dropNextLine d => do let (_, l) ← l.dropNextLine d; return l

/-- A history of calls. -/
def run (l : LineBuf) : List Op → Res LineBuf
  | [] => .ok l
  | op :: ops => do
    let l ← l.step op
    l.run ops

/-- `l` is a line buffer of capacity `n` after some history of calls. -/
def Reachable (n : Nat) (l : LineBuf) : Prop :=
  ∃ (b : Build) (delims : List Byte) (l₀ : LineBuf) (ops : List Op), create b n delims = .ok l₀ ∧ l₀.run ops = .ok l

/-- The observable contents. -/
def Holds (l : LineBuf) (q : List Byte) : Prop := l.ring.Holds q

/-! ## A client reading line by line -/

/-- What the client does: receive a chunk, or poll for a line. -/
inductive ClientOp
  | feed (chunk : List Byte)
  | poll (dst : List Byte) (maxLength : Nat)
  deriving DecidableEq, Repr

/-- The client: `lb.push(chunk)`, or
`if (lb.has_line()) { n = lb.get_next_line(buffer, max_length); use(buffer, n); }`.
Returns the bytes accepted by the buffer so far and the lines used so far. -/
def client (l : LineBuf) : List ClientOp → Res ((List Byte × List (List Byte)) × LineBuf)
  | [] => .ok (([], []), l)
  | .feed chunk :: ops => do
    let (n, l) ← l.pushStr chunk
    let ((fed, lines), l) ← l.client ops
    return ((chunk.take n ++ fed, lines), l)
  | .poll dst m :: ops => do
    if ← l.hasLine then
      let ((n, dst), l) ← l.getNextLine dst m none
      let ((fed, lines), l) ← l.client ops
      return ((fed, dst.take n :: lines), l)
    else
      l.client ops

end Spine.LineBuf

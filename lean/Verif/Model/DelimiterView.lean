import Verif.Model.LineBuffer
/-!
# Model of the delimiters of a `LineBuffer` as a view of the caller's text

`/repo/src/spine/structure/linebuffer.hpp:42`: `_delimiters` is a `std::string_view`, which refers to characters that belong to the caller. `Verif/Model/LineBuffer.lean` has a copy of the
characters in its place.
-/

namespace Spine

/-- The texts of the program: their characters now, and `none` for those that do not exist any more. -/
abbrev Texts := Nat → Option (List Byte)

/-- A `std::string_view` of characters of a text. -/
structure TextView where
  text : Nat
  start : Nat
  size : Nat
  deriving DecidableEq, Repr

/-- Reading the characters of a view. The characters of a text that does not exist, or beyond its end, must not be read; an empty view reads none. -/
def TextView.chars (m : Texts) (v : TextView) : Res (List Byte) :=
  if v.size = 0 then .ok [] else
    match m v.text with
    | none => .error .ub
    | some t => if v.start + v.size ≤ t.length then .ok ((t.drop v.start).take v.size) else .error .ub

/-- `LineBuffer`, `linebuffer.hpp:10-42`. -/
structure ViewLineBuf where
  ring : Ring Byte
  /-- `_delimiters` -/
  delims : TextView
  deriving DecidableEq, Repr

namespace ViewLineBuf

/-- `LineBuffer(capacity, delimiters)`, `linebuffer.cpp:5-6`. -/
def create (b : Build) (capacity : Nat) (delims : TextView) : Res ViewLineBuf := do
  let ring ← Ring.create b capacity 0
  return { ring, delims }

/-- The loop of `length_of_next_line()`, `linebuffer.cpp:49-56`. `_delimiters.find(v)` reads the characters. -/
def lengthLoop (m : Texts) (l : ViewLineBuf) (i : Nat) (fuel : Nat) : Res Nat :=
  match fuel with
  | 0 => .ok 0
  | fuel + 1 => do
    match ← l.ring.peekAt i with
    | none => return 0
    | some v =>
      let d ← l.delims.chars m
      if d.contains v then return i + 1 else l.lengthLoop m (i + 1) fuel

/-- `length_of_next_line()`, `linebuffer.cpp:45-57`. -/
def lengthOfNextLine (m : Texts) (l : ViewLineBuf) : Res Nat := l.lengthLoop m 0 l.ring.usedSpace

/-- `discovered_length.value_or(length_of_next_line())`. -/
def discovered (m : Texts) (l : ViewLineBuf) (d : Option Nat) : Res Nat := do
  let n ← l.lengthOfNextLine m
  return d.getD n

/-- `get_next_line(buffer, max_length, discovered_length)`, `linebuffer.cpp:21-31`. -/
def getNextLine (m : Texts) (l : ViewLineBuf) (dst : List Byte) (maxLength : Nat) (d : Option Nat) : Res ((Nat × List Byte) × ViewLineBuf) := do
  let length ← l.discovered m d
  if length = 0 ∨ length > maxLength then return ((0, dst), l)
  let length := length - 1
  let (dst, ring) ← l.ring.popLoop dst 0 length
  let (_, ring) ← ring.pop
  let dst ← wr dst length 0
  return ((length, dst), { l with ring })

/-- `drop_next_line(discovered_length)`, `linebuffer.cpp:33-43`. -/
def dropNextLine (m : Texts) (l : ViewLineBuf) (d : Option Nat) : Res (Bool × ViewLineBuf) := do
  let length ← l.discovered m d
  if length = 0 then return (false, l)
  let ring ← LineBuf.dropLoop l.ring (length - 1)
  let (_, ring) ← ring.pop
  return (true, { l with ring })

/-- A call of the public interface with its arguments. -/
inductive Op
  /-- any call inherited from `RingBuffer<char>` -/
  | ring (op : Ring.Op Byte)
  /-- `set_delimiters`, `linebuffer.cpp:10` -/
  | setDelims (delims : TextView)
  | getNextLine (dst : List Byte) (maxLength : Nat) (d : Option Nat)
  | dropNextLine (d : Option Nat)
  deriving DecidableEq, Repr

/-- One call, when the texts are `m`. The answer is what `get_next_line` or `drop_next_line` returns, and the caller's memory. -/
def step (m : Texts) (l : ViewLineBuf) : Op → Res (Option (Nat × List Byte) × ViewLineBuf)
  | .ring op => do let (_, ring) ← l.ring.step op; return (none, { l with ring })
  | .setDelims delims => return (none, { l with delims })
  | .getNextLine dst n d => do let (r, l) ← l.getNextLine m dst n d; return (some r, l)
  | .dropNextLine d => do let (r, l) ← l.dropNextLine m d; return (some (if r then 1 else 0, []), l)

/-- A history of calls, each with the texts at that time. -/
def run (l : ViewLineBuf) : List (Texts × Op) → Res (List (Option (Nat × List Byte)) × ViewLineBuf)
  | [] => .ok ([], l)
  | (m, op) :: ops => do
    let (o, l) ← l.step m op
    let (os, l) ← l.run ops
    return (o :: os, l)

end ViewLineBuf
end Spine

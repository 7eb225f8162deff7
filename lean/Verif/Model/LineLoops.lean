import Verif.Model.LineBuffer
/-!
# Loops over the lines of a line buffer

Two ways for a program to process the lines that have arrived in a `LineBuffer` (or in a `BufferedStream`, whose functions of the same
names call those of its input buffer, `buffered_stream.hpp:29`, `buffered_stream.cpp:17-19`). `dst` is the program's character array.
-/

namespace Spine.LineBuf

/-- `while ((n = buffer.get_next_line(dst, sizeof dst)) > 0) process(dst, n);`: the loop that the comment of `get_next_line`,
`linebuffer.hpp:30` ("returns the amount of bytes read"), suggests. Returns the processed lines. -/
def whileRead (l : LineBuf) (dst : List Byte) : Nat → Res (List (List Byte) × LineBuf)
  | 0 => .error .fuel
  | fuel + 1 => do
    let ((k, dst), l) ← l.getNextLine dst dst.length none
    if k = 0 then return ([], l)
    let (lines, l) ← l.whileRead dst fuel
    return (dst.take k :: lines, l)

/-- `while (buffer.has_line()) { n = buffer.get_next_line(dst, sizeof dst); process(dst, n); }`, with `has_line`, `linebuffer.hpp:25`. -/
def whileLine (l : LineBuf) (dst : List Byte) : Nat → Res (List (List Byte) × LineBuf)
  | 0 => .error .fuel
  | fuel + 1 => do
    let some ← l.hasLine
    if some then
      let ((k, dst), l) ← l.getNextLine dst dst.length none
      let (lines, l) ← l.whileLine dst fuel
      return (dst.take k :: lines, l)
    else return ([], l)

end Spine.LineBuf

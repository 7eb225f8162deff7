import Verif.Model.LineBuffer
/-!
# Model of pushing the elements of a ring buffer into the same ring buffer

`push(const T* buffer, size_t length, bool rollover)` of `/repo/src/spine/structure/ringbuffer.hpp` takes the elements by address, and `peek_at(T**, size_t)` and
`LineBuffer::get_next_line_view` give out addresses inside the buffer's own storage, as in `lb.push(*lb.get_next_line_view())`. Each element is then read from the storage when it is its turn.
-/

namespace Spine

namespace Ring

variable {α : Type}

/-- `push(const T& value, bool rollover)`, `ringbuffer.hpp:79-91`, where `value` refers to slot `s` of the storage. -/
def pushSlot (r : Ring α) (s : Nat) (rollover : Bool) : Res (Bool × Ring α) := do
  if r.isFull && !rollover then return (false, r)
  let value ← rd r.buf s
  r.push value rollover

/-- `push(const T* buffer, size_t length, bool rollover)`, `ringbuffer.hpp:93-101`, where `buffer` points to slot `s` of the storage. -/
def pushOwn (r : Ring α) (s length : Nat) (rollover : Bool) : Res (Nat × Ring α) :=
  match length with
  | 0 => .ok (0, r)
  | length + 1 => do
    let (done, r) ← r.pushSlot s rollover
    if !done then return (0, r)
    let (n, r) ← r.pushOwn (s + 1) length rollover
    return (n + 1, r)

end Ring

/-- `push(const std::string_view&)`, `linebuffer.cpp:8`, for a view of the buffer's own storage. -/
def LineBuf.pushView (l : LineBuf) (v : LineBuf.View) : Res (Nat × LineBuf) := do
  let (n, ring) ← l.ring.pushOwn v.start v.size false
  return (n, { l with ring })

end Spine

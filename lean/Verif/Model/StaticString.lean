import Verif.Model.Text
/-!
# Model of `StaticString`

`/repo/src/spine/structure/static_string.hpp` and `static_string.cpp`. The `std::string` is its characters and its capacity, which no operation here changes, as
`resize` only reallocates beyond the capacity. Which capacity the library chooses for a length is an argument. Reading the end iterator is undefined.
-/

namespace Spine

structure StaticString where
  chars : List Char
  capacity : Nat
  deriving DecidableEq, Repr

namespace StaticString

/-- `std::string::resize` within the capacity. -/
def resized (cs : List Char) (n : Nat) : List Char := cs.take n ++ List.replicate (n - cs.length) '\x00'

/-- The constructor, `static_string.cpp:5`; `room` is the capacity of a `std::string` of that length. -/
def create (room : Nat → Nat) (length : Nat) : StaticString := ⟨resized (List.replicate length '\x00') (room length), room length⟩

/-- `size`, `static_string.hpp:21`. -/
def size (s : StaticString) : Nat := s.chars.length

/-- `set_size`, `static_string.cpp:6-9`. -/
def setSize (b : Build) (s : StaticString) (n : Nat) : Res StaticString := do
  spnAssert b (decide (n ≤ s.capacity))
  return { s with chars := resized s.chars (min n s.capacity) }

/-- `data(expected)`, `static_string.cpp:10-17`, the effect on the string. -/
def data (b : Build) (s : StaticString) (expected : Nat) : Res StaticString := if expected > 0 then s.setSize b expected else .ok s

/-- Writing a text through the pointer that `data(expected)` returned; undefined outside of the string. -/
def write (b : Build) (s : StaticString) (expected : Nat) (text : List Char) : Res StaticString := do
  let s ← s.data b expected
  if text.length ≤ s.chars.length then return { s with chars := text ++ s.chars.drop text.length } else .error .ub

/-- `lstrip`, `static_string.cpp:18-26`: the characters after the first `len` are moved to the front (`memmove`), the rest stays, and the string is shortened. -/
def lstrip (b : Build) (s : StaticString) (delimiters : List Char) : Res StaticString := do
  let len ← Text.stripCount delimiters s.chars
  let moved := s.chars.drop len ++ s.chars.drop (s.chars.length - len)
  ({ s with chars := moved } : StaticString).setSize b (s.chars.length - len)

/-- `rstrip`, `static_string.cpp:27-34`. -/
def rstrip (b : Build) (s : StaticString) (delimiters : List Char) : Res StaticString := do
  let len ← Text.stripCount delimiters s.chars.reverse
  s.setSize b (s.chars.length - len)

/-- `starts_with`, `static_string.cpp:35-37`. -/
def startsWith (s : StaticString) (needle : List Char) : Res Bool := Text.compareAt s.chars 0 needle.length needle

/-- `ends_with`, `static_string.cpp:38-40`. -/
def endsWith (s : StaticString) (needle : List Char) : Res Bool := Text.compareAt s.chars (usub s.chars.length needle.length) s.chars.length needle

/-- A call of a member function that changes the string. -/
inductive Call
  | setSize (n : Nat)
  | write (expected : Nat) (text : List Char)
  | lstrip (delimiters : List Char)
  | rstrip (delimiters : List Char)

def call (b : Build) (s : StaticString) : Call → Res StaticString
  | .setSize n => s.setSize b n
  | .write n text => s.write b n text
  | .lstrip d => s.lstrip b d
  | .rstrip d => s.rstrip b d

end StaticString
end Spine

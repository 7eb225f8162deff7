import Verif.Model.Stream
/-!
# Model of streams that leave functions to the base class

`/repo/src/spine/io/stream/stream.hpp`. The functions of `Stream` have bodies (`stream.hpp:17-48`): an assertion that always fails and, in a release build, the return of
`-1` or `false`. A class that is derived from `Stream` and overrides only some of them is accepted by the compiler.
-/

namespace Spine.Stream

/-- `Stream::read(uint8_t&)`, `stream.hpp:22-25`. -/
def baseRead {σ : Type} (b : Build) (s : σ) : Res (Option Byte × σ) := do
  spnAssert b false
  return (none, s)

/-- `Stream::write(const uint8_t)`, `stream.hpp:44-47`. -/
def baseWrite {σ : Type} (b : Build) (s : σ) (_ : Byte) : Res (Bool × σ) := do
  spnAssert b false
  return (false, s)

/-- `Stream::available()` and `Stream::available_for_write()` in a release build, `stream.hpp:27-34`: `-1` as a `size_t`. In a debug build they fail. -/
def baseAvailable {σ : Type} (_ : σ) : Nat := sizeMod - 1

/-- A stream for reading: it does not override `write`. -/
def readOnly {σ : Type} (b : Build) (S : Stream σ) : Stream σ := { S with write := baseWrite b }

/-- A stream for writing: it does not override `read`. -/
def writeOnly {σ : Type} (b : Build) (S : Stream σ) : Stream σ := { S with read := baseRead b }

/-- A stream that overrides nothing but `initialize`, in a release build. -/
def bare : Stream Unit where
  available := baseAvailable
  availableForWrite := baseAvailable
  read := baseRead .release
  write := baseWrite .release

end Spine.Stream

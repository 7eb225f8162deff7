import Verif.Model.Stream
import Verif.Spec.Lines
/-!
# Specification: byte streams
-/

namespace Spine

/-- A stream that keeps what it promises. `R s inq outq room` reads: in state `s` the bytes `inq` wait to
be read, the bytes `outq` have been written, and `room` more bytes can be written.  While bytes wait,
`available()` is positive and a read delivers the oldest one; while there is room,
`available_for_write()` is positive and a write appends. -/
structure Stream.Lossless {σ : Type} (S : Stream σ) (R : σ → List Byte → List Byte → Nat → Prop) : Prop where
  available : ∀ {s inq outq room}, R s inq outq room → (S.available s = 0 ↔ inq = [])
  read : ∀ {s c inq outq room}, R s (c :: inq) outq room →
    ∃ s', S.read s = .ok (some c, s') ∧ R s' inq outq room
  availableForWrite : ∀ {s inq outq room}, R s inq outq room → (S.availableForWrite s = 0 ↔ room = 0)
  write : ∀ {s inq outq room} c, R s inq outq (room + 1) →
    ∃ s', S.write s c = .ok (true, s') ∧ R s' inq (outq ++ [c]) room

/-- A port that keeps what it promises: its stream does, at most `a` bytes wait, and the remote side is connected to the other ends of the two queues: arriving bytes are
appended, as far as the port accepts them, leaving bytes are the oldest ones. -/
structure Port.Lossless {σ : Type} (P : Port σ) (R : σ → List Byte → List Byte → Nat → Prop) (a : Nat) : Prop where
  stream : P.stream.Lossless R
  bound : ∀ {s inq outq room}, R s inq outq room → inq.length ≤ a
  inject : ∀ {s inq outq room} bytes, R s inq outq room → ∃ k s', P.inject s bytes = .ok (k, s') ∧ k ≤ bytes.length ∧ R s' (inq ++ bytes.take k) outq room
  extract : ∀ {s inq outq room} k, R s inq outq room → ∃ gone rest s' room', P.extract s k = .ok (gone, s') ∧ outq = gone ++ rest ∧ R s' inq rest room'

/-- The bytes of a reply. -/
def Transaction.Piece.bytes : List Transaction.Piece → List Byte
  | [] => []
  | .char v :: ps => v :: bytes ps
  | .str vs :: ps => vs ++ bytes ps

/-- Between any two `pull`s there is a `poll` or `answer`; `ok` says whether a `pull` may come first. -/
def Device.PollBetweenPulls : Bool → List Device.Op → Prop
  | _, [] => True
  | ok, .pull :: ops => ok = true ∧ PollBetweenPulls false ops
  | _, .poll _ _ :: ops => PollBetweenPulls true ops
  | _, .answer _ _ :: ops => PollBetweenPulls true ops
  | ok, _ :: ops => PollBetweenPulls ok ops

end Spine

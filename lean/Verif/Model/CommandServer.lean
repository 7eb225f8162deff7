import Verif.Model.Stream
/-!
# Model of a command server

Not code of the repository: the client that `BufferedStream` (`io/stream/buffered_stream.hpp:12-66`) and
`Transaction` (`io/stream/transaction.hpp:8-73`) are made for. Requests arrive as lines, every request is
answered with a reply. The application calls `pull_in_data()`, a serving function and `push_out_data()`, in
any order and number; the remote side sends and receives at any time.
-/

namespace Spine.Server

variable {σ : Type}

/-- How the application gets at a request. -/
inductive How
  /-- `if (bs.output_buffer_space_left() > M) if (auto t = bs.new_transaction()) {
  auto reply = f(t->incoming()); t->outgoing(reply); t->commit(); }` -/
  | view
  /-- `if (bs.output_buffer_space_left() > M && bs.has_line()) {
  auto n = bs.get_next_line(buffer, max_length); bs.buffered_write(f({buffer, n})); }` -/
  | copy (dst : List Byte) (maxLength : Nat)

/-- What happens. -/
inductive Op
  /-- bytes arrive at the port -/
  | inject (bytes : List Byte)
  /-- bytes leave the port -/
  | extract (k : Nat)
  /-- `bs.pull_in_data()` -/
  | pull
  /-- `bs.push_out_data()` -/
  | push
  /-- a request is served, if there is one and enough room for its reply -/
  | serve (how : How)

/-- Serving a request. -/
def serve (b : Build) (f : List Byte → List Byte) (M : Nat) (s : BufStream σ) (g : Device.Log) :
    How → Res (Device.Log × BufStream σ)
  | .view => do
    if s.output.ring.freeSpace > M then
      match ← Transaction.new b s with
      | none => return (g, s)
      | some t =>
        let line ← t.incoming b s
        let r ← t.outgoing b s (f line)
        let c ← r.2.1.commit b r.2.2
        let s ← c.1.destroy b c.2
        return ({ g with lines := g.lines ++ [line], written := g.written ++ (f line).take r.1 }, s)
    else return (g, s)
  | .copy dst maxLength => do
    if s.output.ring.freeSpace > M then
      if ← s.input.hasLine then
        let ((k, dst), s) ← s.getNextLine dst maxLength none
        let line := dst.take k
        let (k, s) ← s.bufferedWriteMany (f line) false
        return ({ g with lines := g.lines ++ [line], written := g.written ++ (f line).take k }, s)
      else return (g, s)
    else return (g, s)

/-- One event. `fuel` bounds the loops of `pull_in_data` and `push_out_data`. -/
def step (P : Port σ) (b : Build) (f : List Byte → List Byte) (M fuel : Nat) (s : BufStream σ) (g : Device.Log) :
    Op → Res (Device.Log × BufStream σ)
  | .inject bytes => Device.step P fuel s g (.inject bytes)
  | .extract k => Device.step P fuel s g (.extract k)
  | .pull => Device.step P fuel s g .pull
  | .push => Device.step P fuel s g .push
  | .serve how => serve b f M s g how

/-- A history of events. -/
def run (P : Port σ) (b : Build) (f : List Byte → List Byte) (M fuel : Nat) (s : BufStream σ) (g : Device.Log) :
    List Op → Res (Device.Log × BufStream σ)
  | [] => .ok (g, s)
  | op :: ops => do
    let (g, s) ← step P b f M fuel s g op
    run P b f M fuel s g ops

end Spine.Server

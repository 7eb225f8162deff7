import Verif.Model.CommandServer
/-!
# Model of a request/reply exchange between two devices

Not code of the repository: two devices whose ports are connected, each with a `BufferedStream` (`io/stream/buffered_stream.hpp:12-66`) on
its port.  One is a command server (`Model/CommandServer.lean`), the other one a client that sends a request, waits for the reply, and then
sends the next request.  The applications call `pull_in_data()`, `push_out_data()` and their own functions in any order and number; the
wires carry bytes at any time.
-/

namespace Spine.Exchange

variable {σ τ : Type}

/-- The two devices. -/
structure State (σ τ : Type) where
  client : BufStream σ
  server : BufStream τ
  /-- requests that the client has not sent yet -/
  todo : List (List Byte)
  /-- the client waits for a reply -/
  waiting : Bool
  /-- replies that the client has got -/
  answers : List (List Byte)
  /-- requests that the server has answered -/
  served : List (List Byte)

/-- What happens. -/
inductive Op
  /-- the wire from the client to the server carries bytes -/
  | forward (k : Nat)
  /-- the wire from the server to the client carries bytes -/
  | backward (k : Nat)
  /-- `pull_in_data()` of the client -/
  | clientPull
  /-- `push_out_data()` of the client -/
  | clientPush
  /-- `if (waiting) { if (bs.has_line()) { auto n = bs.get_next_line(buffer, max_length); answers.push_back({buffer, n}); waiting = false; } }
  else if (!todo.empty() && bs.output_buffer_space_left() > todo.front().size()) { bs.buffered_write(todo.front() + end);
  todo.pop_front(); waiting = true; }` -/
  | clientTurn (dst : List Byte) (maxLength : Nat)
  /-- `pull_in_data()` of the server -/
  | serverPull
  /-- `push_out_data()` of the server -/
  | serverPush
  /-- the server serves a request, if there is one and enough room for its reply -/
  | serverTurn (how : Server.How)

/-- The client's function. -/
def clientTurn (fin : Byte) (st : State σ τ) (dst : List Byte) (maxLength : Nat) : Res (State σ τ) := do
  if st.waiting then
    if ← st.client.input.hasLine then
      let ((k, dst), s) ← st.client.getNextLine dst maxLength none
      return { st with client := s, answers := st.answers ++ [dst.take k], waiting := false }
    else return st
  else
    match st.todo with
    | [] => return st
    | r :: todo =>
      if st.client.output.ring.freeSpace > r.length then
        let (_, s) ← st.client.bufferedWriteMany (r ++ [fin]) false
        return { st with client := s, todo, waiting := true }
      else return st

/-- One event.  Every reply ends with `fin`; the server looks for room for `M` bytes; `fuel` bounds the loops of `pull_in_data` and
`push_out_data`. -/
def step (P : Port σ) (Q : Port τ) (b : Build) (f : List Byte → List Byte) (fin : Byte) (M fuel : Nat) (st : State σ τ) : Op → Res (State σ τ)
  | .forward k => do
    let (bytes, p) ← P.extract st.client.stream k
    let (_, q) ← Q.inject st.server.stream bytes
    return { st with client := { st.client with stream := p }, server := { st.server with stream := q } }
  | .backward k => do
    let (bytes, q) ← Q.extract st.server.stream k
    let (_, p) ← P.inject st.client.stream bytes
    return { st with client := { st.client with stream := p }, server := { st.server with stream := q } }
  | .clientPull => do let (_, s) ← st.client.pullInData P.stream fuel; return { st with client := s }
  | .clientPush => do let (_, s) ← st.client.pushOutData P.stream fuel; return { st with client := s }
  | .clientTurn dst maxLength => clientTurn fin st dst maxLength
  | .serverPull => do let (_, s) ← st.server.pullInData Q.stream fuel; return { st with server := s }
  | .serverPush => do let (_, s) ← st.server.pushOutData Q.stream fuel; return { st with server := s }
  | .serverTurn how => do
    let (g, s) ← Server.serve b (fun l => f l ++ [fin]) M st.server ⟨[], st.served, [], [], 0⟩ how
    return { st with server := s, served := g.lines }

/-- A history of events. -/
def run (P : Port σ) (Q : Port τ) (b : Build) (f : List Byte → List Byte) (fin : Byte) (M fuel : Nat) (st : State σ τ) :
    List Op → Res (State σ τ)
  | [] => .ok st
  | op :: ops => do run P Q b f fin M fuel (← step P Q b f fin M fuel st op) ops

end Spine.Exchange

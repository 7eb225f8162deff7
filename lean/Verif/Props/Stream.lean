import Verif.Proofs.Transaction
import Verif.Proofs.Device
/-!
# Properties C12–C18: `BufferedStream`, `MockStream`, `Transaction`
-/

namespace Spine

open BufStream

variable {σ : Type} {S : Stream σ}

/-! ## C12 -/

/-- **C12**. On a stream that keeps its promises, `pull_in_data()` ends (after at most one loop check more
than there are bytes), takes the oldest `k` waiting bytes in order and returns `k`; the input buffer then
holds the newest `n` bytes of its former content followed by these bytes.  It leaves bytes waiting only
when the input buffer is full and contains a complete line (provided NUL is no delimiter). The output
side is untouched. -/
theorem C12_pull_in_data (R : σ → List Byte → List Byte → Nat → Prop) (hS : S.Lossless R)
    (n m : Nat) (hn : 0 < n) (hm : 0 < m) (s : BufStream σ) (h : Reachable S n m s)
    (q p : List Byte) (hq : s.input.Holds q) (hp : s.output.Holds p)
    (inq outq : List Byte) (room : Nat) (hR : R s.stream inq outq room) (fuel : Nat) (hfuel : inq.length < fuel) :
    ∃ k s', s.pullInData S fuel = .ok (k, s') ∧ k ≤ inq.length ∧
      s'.input.Holds (Queue.newest n (q ++ inq.take k)) ∧ s'.output.Holds p ∧
      R s'.stream (inq.drop k) outq room ∧ s'.input.delims = s.input.delims ∧
      (k < inq.length → 0 ∉ s.input.delims → (Queue.newest n (q ++ inq.take k)).length = n ∧
        ∃ c ∈ Queue.newest n (q ++ inq.take k), c ∈ s.input.delims) := by
  obtain ⟨q', p', hi⟩ := h.inv hn hm
  obtain rfl := hi.input.1.holds.unique hq
  obtain rfl := hi.output.holds.unique hp
  obtain ⟨k, s', e, hk, hrep, hout, hdel, hRk, hstop, -⟩ := pullLoop_spec hS fuel 0 0 hi.input.1 hR hfuel
  refine ⟨k, s', by simpa [pullInData] using e, hk, hrep.holds, by rw [hout]; exact hp, hRk, hdel, ?_⟩
  intro hlt h0
  obtain ⟨h1, h2⟩ := hstop hlt
  refine ⟨Queue.newest_length (by simp; omega), ?_⟩
  rcases h2 with h2 | ⟨-, h2⟩
  · rcases Lines.first_or_none s.input.delims (Queue.newest n (q' ++ inq.take k)) with hno | ⟨line, rest, d, hd, he, -⟩
    · exact absurd hno h2
    · exact ⟨d, by rw [he]; simp, hd⟩
  · exact absurd h2 h0

/-- `MockStream` keeps its promises: the general theorems of this file apply to it. -/
theorem C12_mock_stream (a b : Nat) : Mock.iface.Lossless
    (fun m inq outq room => Ring.Rep a m.stdin inq ∧ Ring.Rep b m.stdout outq ∧ m.swapped = false ∧
      room = b - outq.length) := Mock.lossless a b

/-- The proviso on NUL is needed: with NUL among the delimiters, a full input buffer without a line and a
waiting byte, `pull_in_data()` takes nothing, so no line ever appears. -/
theorem C12_nul_delimiter_stuck : ∃ s : BufStream Mock, Device.create .debug 4 4 2 2 [0] = .ok s ∧
    (Device.run Mock.port 9 s ⟨[], [], [], [], 0⟩ [.inject [97, 98], .pull, .inject [99, 0], .pull, .pull]).map
      (fun x => (x.2.input.ring.buf, x.2.input.ring.usedSpace, x.2.stream.available)) = .ok ([97, 98], 2, 2) :=
  ⟨_, rfl, rfl⟩

/-- The hypotheses of C12–C18 hold for a device that has pulled in `"ab\nc"` into a buffer of 3 bytes: the
buffer holds `"ab\n"`, one byte waits. -/
example : ∃ s : BufStream Mock, Reachable Mock.iface 3 4 s ∧ s.input.Holds [97, 98, 10] ∧ s.output.Holds [] ∧
    (∃ r, Mock.State 8 8 s.stream [99] [] r) ∧ Lines.First s.input.delims [97, 98, 10] [97, 98] [] := by
  obtain ⟨m₀, e₀, h₀⟩ := Mock.create_state (a := 8) (b := 8) (by omega) (by omega) .debug
  obtain ⟨m₁, e₁, h₁⟩ := h₀.inject [97, 98, 10, 99]
  obtain ⟨s, es, hi, hst, hd, -, ho⟩ := create_inv (n := 3) (m := 4) (by omega) (by omega) .debug m₁ [13, 10]
  have hR : Mock.State 8 8 s.stream [97, 98, 10, 99] [] 8 := by rw [hst]; simpa using h₁
  obtain ⟨k, s', e, hk, hrep, hout, hdel, hRk, hstop, -⟩ :=
    pullLoop_spec (Mock.lossless 8 8) 9 0 0 hi.input.1 hR (by simp)
  have hk3 : k = 3 := by
    have e' : (s.pullLoop Mock.iface 9 0 0).map (·.1) = .ok 3 := by
      have hc : s = (⟨⟨⟨[0, 0, 0], 0, 0, 0, false⟩, [13, 10]⟩, ⟨⟨[0, 0, 0, 0], 0, 0, 0, false⟩, [13, 10]⟩, m₁⟩ : BufStream Mock) := by
        cases es; rfl
      have hm : m₁ = ⟨⟨[97, 98, 10, 99, 0, 0, 0, 0], 4, 0, 0, false⟩, ⟨List.replicate 8 0, 0, 0, 0, false⟩, false⟩ := by
        cases e₀; cases e₁; rfl
      rw [hc, hm]; rfl
    rw [e] at e'
    simp [Except.map] at e'
    exact e'
  subst hk3
  refine ⟨s', ⟨.debug, [13, 10], m₁, s, [.pull 9], es, ?_⟩, hrep.holds, by rw [hout]; exact hi.output.holds,
    ⟨_, hRk⟩, ?_⟩
  · simp [run, step, pullInData, e]
  · rw [hdel, hd]; exact ⟨10, by decide, rfl, by decide⟩

/-! ## C13 -/

/-- **C13**, one call. If nothing has been overwritten since the last byte was taken out, or the input
buffer has no complete line yet, then no byte that `pull_in_data()` overwrites is a delimiter: a line may
lose its beginning, but never its end, and lines that were complete stay complete. -/
theorem C13_pull_keeps_line_ends_partial (R : σ → List Byte → List Byte → Nat → Prop) (hS : S.Lossless R)
    (n m : Nat) (hn : 0 < n) (hm : 0 < m) (s : BufStream σ) (h : Reachable S n m s)
    (q : List Byte) (hq : s.input.Holds q)
    (inq outq : List Byte) (room : Nat) (hR : R s.stream inq outq room) (fuel : Nat) (hfuel : inq.length < fuel)
    (hok : s.input.ring.overrunSpace = 0 ∨ Lines.NoLine s.input.delims q) :
    ∃ k s' lost q', s.pullInData S fuel = .ok (k, s') ∧ s'.input.Holds q' ∧ q ++ inq.take k = lost ++ q' ∧
      ∀ c ∈ lost, c ∉ s.input.delims := by
  obtain ⟨q', p', hi⟩ := h.inv hn hm
  obtain rfl := hi.input.1.holds.unique hq
  obtain ⟨k, s', e, hk, hrep, hout, hdel, hRk, -, hsafe⟩ := pullLoop_spec hS fuel 0 0 hi.input.1 hR hfuel
  refine ⟨k, s', _, _, by simpa [pullInData] using e, hrep.holds, ?_,
    (hsafe (by rcases hok with h | h; exact .inl h; exact .inr (.inl h)) hi.input.2).1⟩
  have := newest_split (n := n) (q' ++ inq.take k)
  rw [show (q' ++ inq.take k).length = q'.length + k by simp; omega] at this
  exact this.symm

/-- **C13**, the application loop. If between any two calls of `pull_in_data()` the application polls for a
line (and uses it if there is one), then over any history every line the remote side sent is delivered, in
order, exactly once; each delivered line is an end piece of the line that was sent (its beginning may have
been overwritten if it did not fit). What is still in the buffers consists, in the same way, of the
remaining lines and the unterminated rest.  Missing for the full claim: applications that call
`pull_in_data()` again before polling, see the counterexample. -/
theorem C13_polling_loop_keeps_lines_partial (bld : Build) (a b n m : Nat) (ha : 0 < a) (hb : 0 < b) (hn : 0 < n)
    (hm : 0 < m) (D : List Byte) (fuel : Nat) (hfa : a < fuel) (hfm : m < fuel) (ops : List Device.Op)
    (hp : ∀ dst mx, Device.Op.poll dst mx ∈ ops → n < mx ∧ mx ≤ dst.length)
    (hd : Device.PollBetweenPulls true ops) :
    ∃ s₀ s g q inq, Device.create bld a b n m D = .ok s₀ ∧
      Device.run Mock.port fuel s₀ ⟨[], [], [], [], 0⟩ ops = .ok (g, s) ∧
      s.input.Holds q ∧ s.stream.stdin.Holds inq ∧
      ∃ left tail sentLines sentTail, Lines.Split D (q ++ inq) left tail ∧ Lines.Split D g.sent sentLines sentTail ∧
        List.Forall₂ (· <:+ ·) (g.lines ++ left) sentLines ∧ tail <:+ sentTail := by
  obtain ⟨s₀, e₀, h₀⟩ := Device.create_ok bld a b n m ha hb hn hm D True
  obtain ⟨s, g, q, p, inq, outq, ok', e, h⟩ := Device.run_ok (Mock.port_lossless a b) D n m fuel hfa hfm True ops true h₀ hp (fun _ => hd)
  obtain ⟨x, tl, h1, h2, h3⟩ := h.disciplined trivial
  obtain ⟨left, tail, hs⟩ := split_total' D (q ++ inq)
  obtain ⟨ls', t', hs', hf', ht'⟩ := hs.prepend h1
  refine ⟨s₀, s, g, q, inq, e₀, e, h.inv.input.1.holds, h.port.choose_spec.1.holds, left, tail, tl ++ ls', t', hs, ?_, ?_, ht'⟩
  · have := h2 [] ls' t' (by simpa using hs')
    simpa using this
  · exact List.rel_append h3 hf'

/-- A history in which `pull_in_data()` is called twice before polling. -/
def pullTwice : List Device.Op :=
  [.inject [97, 98, 99, 100, 10], .pull, .inject [101, 102, 103], .pull, .poll [0, 0, 0, 0, 0] 5]

/-- The code violates C13 in general: with an input buffer of 3 bytes, `"abcd\n"` is pulled in (leaving
`"cd\n"`, a complete line); then `"efg"` arrives and the next `pull_in_data()` overwrites the complete line,
although the early break is there "to lose no input if possible". The poll finds no line. -/
theorem C13_pull_twice_counterexample : ∃ s₀ : BufStream Mock, Device.create .debug 9 9 3 3 [10] = .ok s₀ ∧
    (Device.run Mock.port 10 s₀ ⟨[], [], [], [], 0⟩ (pullTwice.take 2)).bind (fun x => x.2.input.hasLine) = .ok true ∧
    (Device.run Mock.port 10 s₀ ⟨[], [], [], [], 0⟩ pullTwice).map (fun x => (x.1.lines, x.2.input.ring.buf)) =
      .ok ([], [102, 103, 101]) :=
  ⟨_, rfl, rfl, rfl⟩

/-- The polling loop on the same bytes delivers the line's end piece. -/
example : ∃ s₀ : BufStream Mock, Device.create .debug 9 9 3 3 [10] = .ok s₀ ∧
    (Device.run Mock.port 10 s₀ ⟨[], [], [], [], 0⟩ [.inject [97, 98, 99, 100, 10], .pull, .poll [0, 0, 0, 0, 0] 5,
      .inject [101, 102, 103], .pull, .poll [0, 0, 0, 0, 0] 5]).map (fun x => (x.1.lines, x.1.lost)) =
      .ok ([[99, 100]], 2) :=
  ⟨_, rfl, rfl⟩

/-! ## C14 -/

/-- **C14**. On a stream that keeps its promises, `push_out_data()` moves the oldest bytes of the output
buffer to the stream, in order, as many as there are and there is room for, returns their number and keeps
the rest. The input side is untouched. -/
theorem C14_push_out_data (R : σ → List Byte → List Byte → Nat → Prop) (hS : S.Lossless R)
    (n m : Nat) (hn : 0 < n) (hm : 0 < m) (s : BufStream σ) (h : Reachable S n m s)
    (q p : List Byte) (hq : s.input.Holds q) (hp : s.output.Holds p)
    (inq outq : List Byte) (room : Nat) (hR : R s.stream inq outq room) (fuel : Nat)
    (hfuel : min p.length room < fuel) :
    ∃ s', s.pushOutData S fuel = .ok (min p.length room, s') ∧ s'.output.Holds (p.drop room) ∧ s'.input.Holds q ∧
      R s'.stream inq (outq ++ p.take room) (room - p.length) := by
  obtain ⟨q', p', hi⟩ := h.inv hn hm
  obtain rfl := hi.input.1.holds.unique hq
  obtain rfl := hi.output.holds.unique hp
  obtain ⟨s', e, hrep, hin, hdel, hRk⟩ := pushLoop_spec hS fuel 0 hi.output hR hfuel
  exact ⟨s', by simpa [pushOutData] using e, hrep.holds, by rw [hin]; exact hq, hRk⟩

/-- A stream that reports room for one byte but whose writes fail. -/
def brokenStream : Stream Unit where
  available := fun _ => 0
  availableForWrite := fun _ => 1
  read := fun s => .ok (none, s)
  write := fun s _ => .ok (false, s)

/-- On a stream whose write fails although it reported room, the byte is gone: it has been taken out of the
output buffer, and 0 is returned. -/
theorem C14_failed_write_loses_byte : ∃ s : BufStream Unit,
    (do let s ← create .debug () 2 2 [10]; s.run brokenStream [.writeMany [97, 98] false]) = .ok s ∧
    s.output.ring.usedSpace = 2 ∧
    (s.pushOutData brokenStream 5).map (fun x => (x.1, x.2.output.ring.usedSpace)) = .ok (0, 1) :=
  ⟨_, rfl, rfl, rfl⟩

/-! ## C15 -/

/-- **C15**, from the application to the remote side. Over any history of events, the bytes the buffered
stream accepted from the application are, in order, the bytes the remote side received, the bytes in the
underlying stream and the bytes in the output buffer: nothing lost, duplicated or reordered. -/
theorem C15_output_order (bld : Build) (a b n m : Nat) (ha : 0 < a) (hb : 0 < b) (hn : 0 < n)
    (hm : 0 < m) (D : List Byte) (fuel : Nat) (hfa : a < fuel) (hfm : m < fuel) (ops : List Device.Op)
    (hp : ∀ dst mx, Device.Op.poll dst mx ∈ ops → n < mx ∧ mx ≤ dst.length) :
    ∃ s₀ s g p outq, Device.create bld a b n m D = .ok s₀ ∧
      Device.run Mock.port fuel s₀ ⟨[], [], [], [], 0⟩ ops = .ok (g, s) ∧
      s.output.Holds p ∧ s.stream.stdout.Holds outq ∧ g.written = g.received ++ outq ++ p := by
  obtain ⟨s₀, e₀, h₀⟩ := Device.create_ok bld a b n m ha hb hn hm D False
  obtain ⟨s, g, q, p, inq, outq, ok', e, h⟩ := Device.run_ok (Mock.port_lossless a b) D n m fuel hfa hfm False ops true h₀ hp (·.elim)
  exact ⟨s₀, s, g, p, outq, e₀, e, h.inv.output.holds, h.port.choose_spec.2.1.holds, by simp [h.output]⟩

/-- **C15**, from the remote side to the application. Over any history of events, the lines the application
used (each with a delimiter), the bytes in the input buffer and the bytes still in the underlying stream
are a subsequence of what the remote side sent: in order, without duplication or invention. The number of
missing bytes is the number of bytes overwritten in the input buffer. -/
theorem C15_input_order (bld : Build) (a b n m : Nat) (ha : 0 < a) (hb : 0 < b) (hn : 0 < n)
    (hm : 0 < m) (D : List Byte) (fuel : Nat) (hfa : a < fuel) (hfm : m < fuel) (ops : List Device.Op)
    (hp : ∀ dst mx, Device.Op.poll dst mx ∈ ops → n < mx ∧ mx ≤ dst.length) :
    ∃ s₀ s g q inq, Device.create bld a b n m D = .ok s₀ ∧
      Device.run Mock.port fuel s₀ ⟨[], [], [], [], 0⟩ ops = .ok (g, s) ∧
      s.input.Holds q ∧ s.stream.stdin.Holds inq ∧
      ∃ ends : List (List Byte × Byte), ends.map Prod.fst = g.lines ∧ (∀ e ∈ ends, e.2 ∈ D) ∧
        ((ends.flatMap fun e => e.1 ++ [e.2]) ++ q ++ inq).Sublist g.sent ∧
        g.sent.length = ((ends.flatMap fun e => e.1 ++ [e.2]) ++ q ++ inq).length + g.lost := by
  obtain ⟨s₀, e₀, h₀⟩ := Device.create_ok bld a b n m ha hb hn hm D False
  obtain ⟨s, g, q, p, inq, outq, ok', e, h⟩ := Device.run_ok (Mock.port_lossless a b) D n m fuel hfa hfm False ops true h₀ hp (·.elim)
  obtain ⟨ends, h1, h2, h3, h4⟩ := h.input
  refine ⟨s₀, s, g, q, inq, e₀, e, h.inv.input.1.holds, h.port.choose_spec.1.holds, ends, h1, h2, ?_, ?_⟩
  · rw [List.append_assoc]; exact h3
  · rw [List.append_assoc]; exact h4

/-- **C15**, without overruns: if no byte was overwritten, what the remote side sent is exactly the used
lines with their delimiters, then the input buffer, then the underlying stream. -/
theorem C15_input_exact (bld : Build) (a b n m : Nat) (ha : 0 < a) (hb : 0 < b) (hn : 0 < n)
    (hm : 0 < m) (D : List Byte) (fuel : Nat) (hfa : a < fuel) (hfm : m < fuel) (ops : List Device.Op)
    (hp : ∀ dst mx, Device.Op.poll dst mx ∈ ops → n < mx ∧ mx ≤ dst.length) :
    ∃ s₀ s g q inq, Device.create bld a b n m D = .ok s₀ ∧
      Device.run Mock.port fuel s₀ ⟨[], [], [], [], 0⟩ ops = .ok (g, s) ∧
      s.input.Holds q ∧ s.stream.stdin.Holds inq ∧
      (g.lost = 0 → ∃ ends : List (List Byte × Byte), ends.map Prod.fst = g.lines ∧ (∀ e ∈ ends, e.2 ∈ D) ∧
        g.sent = (ends.flatMap fun e => e.1 ++ [e.2]) ++ q ++ inq) := by
  obtain ⟨s₀, s, g, q, inq, e₀, e, hq, hi, ends, h1, h2, h3, h4⟩ :=
    C15_input_order bld a b n m ha hb hn hm D fuel hfa hfm ops hp
  refine ⟨s₀, s, g, q, inq, e₀, e, hq, hi, fun h0 => ⟨ends, h1, h2, ?_⟩⟩
  exact (h3.eq_of_length (by omega)).symm

/-- A history for C15 with wrap-around, partial lines, and back pressure on the output. -/
example : ∃ s₀ : BufStream Mock, Device.create .debug 4 2 5 3 [10] = .ok s₀ ∧
    (Device.run Mock.port 10 s₀ ⟨[], [], [], [], 0⟩ [.inject [97, 10, 98, 99, 100], .pull, .write [1, 2, 3, 4], .push,
      .poll [0, 0, 0, 0, 0, 0] 6, .inject [10], .pull, .extract 0, .push, .write [5], .poll [0, 0, 0, 0, 0, 0] 6]).map
        (fun x => (x.1.sent, x.1.lines, x.1.written, x.1.received, x.1.lost)) =
      .ok ([97, 10, 98, 99, 10], [[97], [98, 99]], [1, 2, 3, 5], [1, 2], 0) :=
  ⟨_, rfl, rfl⟩

/-! ## C16 -/

open Transaction

/-- **C16**. When the input buffer has a complete line, `new_transaction()` opens a transaction. A reply sent
through it in any number of pieces and committed appends to the output buffer exactly the bytes of the
reply (cut off where the buffer is full; the returned numbers add up to what was appended) and consumes
exactly the line. In a debug build this needs the reply to be shorter than the free space, which the code
asserts. -/
theorem C16_commit (n m : Nat) (hn : 0 < n) (hm : 0 < m) (s : BufStream σ) (h : Reachable S n m s)
    (q p : List Byte) (hq : s.input.Holds q) (hp : s.output.Holds p)
    (line rest : List Byte) (hf : Lines.First s.input.delims q line rest) (b : Build) (ps : List Piece)
    (hfit : b = .release ∨ (Piece.bytes ps).length < m - p.length) :
    ∃ t t₁ s₁ t₂ s₂, Transaction.new b s = .ok (some t) ∧
      t.reply b s ps = .ok (((Piece.bytes ps).take (m - p.length)).length, t₁, s₁) ∧
      t₁.queued = ((Piece.bytes ps).take (m - p.length)).length ∧
      t₁.commit b s₁ = .ok (t₂, s₂) ∧ t₂.finalized = true ∧
      s₂.output.Holds (p ++ (Piece.bytes ps).take (m - p.length)) ∧ s₂.input.Holds rest ∧ s₂.stream = s.stream := by
  obtain ⟨q', p', hi⟩ := h.inv hn hm
  obtain rfl := hi.input.1.holds.unique hq
  obtain rfl := hi.output.holds.unique hp
  obtain ⟨v, en, -, -⟩ := new_some hi hf b
  obtain ⟨s₁, er, i₁, hin, hst, -⟩ := reply_spec b ps ⟨true, some v, 0, false⟩ hi rfl rfl
    (by rcases hfit with h | h; exact .inl h; exact .inr (.inl h))
  obtain ⟨s₂, ec, i₂, -, hst₂, -⟩ := commit_first b
    ⟨true, some v, min (Piece.bytes ps).length (m - p'.length), false⟩ i₁ rfl rfl (by rw [hin]; exact hf)
  refine ⟨_, _, s₁, _, s₂, en, ?_, ?_, ec, rfl, i₂.output.holds, i₂.input.1.holds, by rw [hst₂, hst]⟩
  · rw [er]; simp [Nat.min_comm]
  · simp [Nat.min_comm]

/-- **C16**. Without a complete line there is no transaction. -/
theorem C16_no_line_no_transaction (n m : Nat) (hn : 0 < n) (hm : 0 < m) (s : BufStream σ) (h : Reachable S n m s)
    (q : List Byte) (hq : s.input.Holds q) (hno : Lines.NoLine s.input.delims q) (b : Build) :
    Transaction.new b s = .ok none := by
  obtain ⟨q', p', hi⟩ := h.inv hn hm
  obtain rfl := hi.input.1.holds.unique hq
  exact new_none hi hno b

/-! ## C17 -/

/-- **C17**, the part that holds: when the output buffer was not already full, a reply followed by `abort()`
leaves the output as it was before the transaction, and consumes exactly the line. Missing: an output
buffer that is already full, see below. -/
theorem C17_abort_partial (n m : Nat) (hn : 0 < n) (hm : 0 < m) (s : BufStream σ) (h : Reachable S n m s)
    (q p : List Byte) (hq : s.input.Holds q) (hp : s.output.Holds p)
    (line rest : List Byte) (hf : Lines.First s.input.delims q line rest) (b : Build) (ps : List Piece)
    (hfit : b = .release ∨ (Piece.bytes ps).length < m - p.length) (hspace : p.length < m) :
    ∃ t t₁ s₁ t₂ s₂ k, Transaction.new b s = .ok (some t) ∧ t.reply b s ps = .ok (k, t₁, s₁) ∧
      t₁.abort b s₁ = .ok (t₂, s₂) ∧ t₂.finalized = true ∧
      s₂.output.Holds p ∧ s₂.input.Holds rest ∧ s₂.stream = s.stream := by
  obtain ⟨q', p', hi⟩ := h.inv hn hm
  obtain rfl := hi.input.1.holds.unique hq
  obtain rfl := hi.output.holds.unique hp
  obtain ⟨v, en, -, -⟩ := new_some hi hf b
  obtain ⟨s₁, er, i₁, hin, hst, -⟩ := reply_spec b ps ⟨true, some v, 0, false⟩ hi rfl rfl
    (by rcases hfit with h | h; exact .inl h; exact .inr (.inl h))
  obtain ⟨r', ed, hr', -⟩ := i₁.output.dropLast (min (Piece.bytes ps).length (m - p'.length)) (by
    simp only [List.length_append, List.length_take]; omega)
  have hback : (p' ++ (Piece.bytes ps).take (m - p'.length)).take
      ((p' ++ (Piece.bytes ps).take (m - p'.length)).length - min (Piece.bytes ps).length (m - p'.length)) = p' := by
    rw [List.take_append_of_le_length]
    · rw [List.take_of_length_le]; simp; omega
    · simp; omega
  rw [hback] at hr'
  obtain ⟨s₂, ea, i₂, hst₂, -⟩ := abort_first b
    ⟨true, some v, min (Piece.bytes ps).length (m - p'.length), false⟩ i₁ rfl rfl (line := line) (rest := rest)
    (by rw [hin]; exact hf) (s₁ := { s₁ with output := { s₁.output with ring := r' } }) (p₁ := p')
    (by simp [undo, deref, outputDropLast, ed]) ⟨i₁.input, hr'⟩ rfl rfl
  exact ⟨_, _, s₁, ⟨true, none, 0, true⟩, s₂, _, en, er, by simpa using ea, rfl, i₂.output.holds, i₂.input.1.holds,
    by rw [hst₂, hst]⟩

/-- The code violates C17 for every full output buffer: a transaction opened and aborted without sending
anything deletes all the output that was waiting from before. -/
theorem C17_abort_full_output_counterexample (n m : Nat) (hn : 0 < n) (hm : 0 < m) (s : BufStream σ)
    (h : Reachable S n m s) (q p : List Byte) (hq : s.input.Holds q) (hp : s.output.Holds p)
    (line rest : List Byte) (hf : Lines.First s.input.delims q line rest) (b : Build) (hfull : p.length = m) :
    ∃ t t₂ s₂, Transaction.new b s = .ok (some t) ∧ t.abort b s = .ok (t₂, s₂) ∧ s₂.output.Holds [] ∧ p ≠ [] := by
  obtain ⟨q', p', hi⟩ := h.inv hn hm
  obtain rfl := hi.input.1.holds.unique hq
  obtain rfl := hi.output.holds.unique hp
  obtain ⟨v, en, -, -⟩ := new_some hi hf b
  obtain ⟨r', ed, hr'⟩ := hi.output.dropLast_zero_full hfull
  obtain ⟨s₂, ea, i₂, -⟩ := abort_first b ⟨true, some v, 0, false⟩ hi rfl rfl hf
    (s₁ := { s with output := { s.output with ring := r' } }) (p₁ := [])
    (by simp [undo, deref, outputDropLast, ed]) ⟨hi.input, hr'⟩ rfl rfl
  exact ⟨_, _, s₂, en, ea, i₂.output.holds, by rintro rfl; simp at hfull; omega⟩

/-- A concrete run of the counterexample: the response `"ok"` fills the output buffer; the next request is
aborted; nothing is sent. -/
example : ∃ s₀ s : BufStream Mock, Device.create .release 8 8 4 2 [10] = .ok s₀ ∧
    (Device.run Mock.port 9 s₀ ⟨[], [], [], [], 0⟩ [.write [111, 107], .inject [97, 10], .pull]).map (·.2) = .ok s ∧
    (do
      let t ← Transaction.new .release s
      match t with
      | none => return 99
      | some t => do
        let (_, s) ← t.abort .release s
        return s.output.ring.usedSpace) = (.ok 0 : Res Nat) := ⟨_, _, rfl, rfl, rfl⟩

/-! ## C18 -/

/-- **C18**, release build. However often and in whatever order `commit()` and `abort()` are called before
the transaction is destroyed, also not at all, exactly one line is consumed and nothing faults. -/
theorem C18_finalize_once_release (n m : Nat) (hn : 0 < n) (hm : 0 < m) (s : BufStream σ) (h : Reachable S n m s)
    (q : List Byte) (hq : s.input.Holds q)
    (line rest : List Byte) (hf : Lines.First s.input.delims q line rest) (es : List End) :
    ∃ t t₁ s₁ s₂, Transaction.new .release s = .ok (some t) ∧ t.ends .release s es = .ok (t₁, s₁) ∧
      t₁.destroy .release s₁ = .ok s₂ ∧ s₂.input.Holds rest ∧ s₂.stream = s.stream := by
  obtain ⟨q', p, hi⟩ := h.inv hn hm
  obtain rfl := hi.input.1.holds.unique hq
  obtain ⟨v, en, -, -⟩ := new_some hi hf .release
  cases es with
  | nil =>
    obtain ⟨s₂, e₂, i₂, -, hst, -⟩ := finalize_first .release ⟨true, some v, 0, false⟩ hi rfl rfl hf
    exact ⟨_, _, s, s₂, en, rfl, by simp [destroy, e₂], i₂.input.1.holds, hst⟩
  | cons x es =>
    obtain ⟨s₁, p₁, e₁, i₁, hst₁⟩ := ends_once .release ⟨true, some v, 0, false⟩ hi rfl rfl hf x
    obtain ⟨s₂, p₂, t₂, e₂, i₂, -, hst₂, hfin, -⟩ := ends_finalized es ⟨true, none, 0, true⟩ i₁ rfl rfl
    exact ⟨_, t₂, s₂, s₂, en, by rw [e₁, e₂], by simp [destroy, hfin], i₂.input.1.holds, by rw [hst₂, hst₁]⟩

/-- **C18**, debug build. A transaction ended at most once consumes exactly one line; ending it a second time
fails an assertion. -/
theorem C18_finalize_once_debug (n m : Nat) (hn : 0 < n) (hm : 0 < m) (s : BufStream σ) (h : Reachable S n m s)
    (q : List Byte) (hq : s.input.Holds q)
    (line rest : List Byte) (hf : Lines.First s.input.delims q line rest) (es : List End) :
    ∃ t, Transaction.new .debug s = .ok (some t) ∧
      (es.length ≤ 1 → ∃ t₁ s₁ s₂, t.ends .debug s es = .ok (t₁, s₁) ∧ t₁.destroy .debug s₁ = .ok s₂ ∧
        s₂.input.Holds rest ∧ s₂.stream = s.stream) ∧
      (2 ≤ es.length → t.ends .debug s es = .error .assertFailed) := by
  obtain ⟨q', p, hi⟩ := h.inv hn hm
  obtain rfl := hi.input.1.holds.unique hq
  obtain ⟨v, en, -, -⟩ := new_some hi hf .debug
  refine ⟨_, en, ?_⟩
  cases es with
  | nil =>
    obtain ⟨s₂, e₂, i₂, -, hst, -⟩ := finalize_first .debug ⟨true, some v, 0, false⟩ hi rfl rfl hf
    exact ⟨fun _ => ⟨_, s, s₂, rfl, by simp [destroy, e₂], i₂.input.1.holds, hst⟩, fun h => by simp at h⟩
  | cons x es =>
    obtain ⟨s₁, p₁, e₁, i₁, hst₁⟩ := ends_once .debug ⟨true, some v, 0, false⟩ hi rfl rfl hf x
    refine ⟨fun hl => ?_, fun hl => ?_⟩
    · obtain rfl : es = [] := List.length_eq_zero_iff.mp (by simpa using hl)
      exact ⟨⟨true, none, 0, true⟩, s₁, s₁, by rw [e₁]; rfl, by simp [destroy], i₁.input.1.holds, hst₁⟩
    · cases es with
      | nil => simp at hl
      | cons y es => rw [e₁]; exact ends_debug_finalized _ rfl y es

/-- **C18**, moves. Moving a transaction into a new object hands everything over: the new object is the old
one, and destroying what is left of the old one has no effect, in both builds. -/
theorem C18_move_partial (b : Build) (t : Transaction) (s : BufStream σ) :
    (moveConstruct t).1 = t ∧ (moveConstruct t).2.destroy b s = .ok s := ⟨rfl, by simp [moveConstruct, destroy]⟩

/-- Assigning a new transaction over one that has not been ended forgets the old one: its line is not
consumed. Here the request `"a"` has been handled but the transaction not committed; assigning over it
and destroying both objects consumes one line only, although two transactions were opened. -/
theorem C18_move_assign_counterexample : ∃ s₀ s : BufStream Mock, Device.create .debug 8 8 8 4 [10] = .ok s₀ ∧
    (Device.run Mock.port 9 s₀ ⟨[], [], [], [], 0⟩ [.inject [97, 10, 98, 10], .pull]).map (·.2) = .ok s ∧
    (do
      let t₁ ← Transaction.new .debug s
      let t₂ ← Transaction.new .debug s
      match t₁, t₂ with
      | some t₁, some t₂ => do
        let (t₁, t₂) := moveAssign t₁ t₂
        let s ← t₂.destroy .debug s
        let s ← t₁.destroy .debug s
        return s.input.ring.usedSpace
      | _, _ => return 99) = (.ok 2 : Res Nat) := ⟨_, _, rfl, rfl, rfl⟩

end Spine

import Verif.Props.Stream
/-!
# Properties C114, C115: `BufferedStream` and `Transaction` on serial ports
-/

namespace Spine

open BufStream

/-! ## C114 -/

/-- `ArduinoUART` keeps its promises, as long as it is only read when `available()` is positive and only written when `available_for_write()` is: the bytes waiting are those
received, the bytes written are on the wire or in the send buffer. -/
theorem C114_arduino (a b : Nat) : Serial.port.Lossless (fun s inq outq room => s.rx = inq ∧ s.wire ++ s.tx = outq ∧ s.rxSize = a ∧ s.txSize = b ∧ s.rx.length ≤ a ∧
    s.tx.length + room = b) a := Serial.lossless a b

/-- So does `MockUART` on a stream that does. -/
theorem C114_mock_uart {σ : Type} {S : Stream σ} {R : σ → List Byte → List Byte → Nat → Prop} (h : S.Lossless R) : (mockUart S).Lossless R := mockUart_lossless h

/-- **C114.** A buffered stream on any port that keeps its promises, in debug and release builds, over any history of arriving and leaving bytes, pulls, pushes, polls, writes
and answers: what the application wrote is, in order, what the remote side received, what is in the port and what is in the output buffer; the lines used or answered (each
with a delimiter), the input buffer and the bytes in the port are a subsequence of what the remote side sent, and the number of missing bytes is the number of bytes
overwritten in the input buffer. -/
theorem C114_history {σ : Type} {P : Port σ} {R : σ → List Byte → List Byte → Nat → Prop} {a : Nat} (hP : P.Lossless R a) {st : σ} {room : Nat} (hR : R st [] [] room)
    (bld : Build) (n m : Nat) (hn : 0 < n) (hm : 0 < m) (D : List Byte) (fuel : Nat) (hfa : a < fuel) (hfm : m < fuel) (ops : List Device.Op)
    (hp : ∀ dst mx, Device.Op.poll dst mx ∈ ops → n < mx ∧ mx ≤ dst.length) :
    ∃ s₀ s g q p inq outq room', BufStream.create bld st n m D = .ok s₀ ∧ Device.run P fuel s₀ ⟨[], [], [], [], 0⟩ ops = .ok (g, s) ∧
      s.input.Holds q ∧ s.output.Holds p ∧ R s.stream inq outq room' ∧ g.written = g.received ++ outq ++ p ∧
      ∃ ends : List (List Byte × Byte), ends.map Prod.fst = g.lines ∧ (∀ e ∈ ends, e.2 ∈ D) ∧
        ((ends.flatMap fun e => e.1 ++ [e.2]) ++ q ++ inq).Sublist g.sent ∧
        g.sent.length = ((ends.flatMap fun e => e.1 ++ [e.2]) ++ q ++ inq).length + g.lost := by
  obtain ⟨s₀, e₀, h₀⟩ := Device.fresh_ok bld n m hn hm D False hR
  obtain ⟨s, g, q, p, inq, outq, ok', e, h⟩ := Device.run_ok hP D n m fuel hfa hfm False ops true h₀ hp (·.elim)
  obtain ⟨ends, h1, h2, h3, h4⟩ := h.input
  obtain ⟨room', hR'⟩ := h.port
  refine ⟨s₀, s, g, q, p, inq, outq, room', e₀, e, h.inv.input.1.holds, h.inv.output.holds, hR', by simp [h.output], ends, h1, h2, ?_, ?_⟩
  · rw [List.append_assoc]; exact h3
  · rw [List.append_assoc]; exact h4

/-- **C114.** If the application looks for a line between any two pulls, every line the remote side sent is used or answered exactly once and in order, up to beginnings that
did not fit, or is still in the buffers. -/
theorem C114_lines {σ : Type} {P : Port σ} {R : σ → List Byte → List Byte → Nat → Prop} {a : Nat} (hP : P.Lossless R a) {st : σ} {room : Nat} (hR : R st [] [] room)
    (bld : Build) (n m : Nat) (hn : 0 < n) (hm : 0 < m) (D : List Byte) (fuel : Nat) (hfa : a < fuel) (hfm : m < fuel) (ops : List Device.Op)
    (hp : ∀ dst mx, Device.Op.poll dst mx ∈ ops → n < mx ∧ mx ≤ dst.length) (hd : Device.PollBetweenPulls true ops) :
    ∃ s₀ s g q inq outq room', BufStream.create bld st n m D = .ok s₀ ∧ Device.run P fuel s₀ ⟨[], [], [], [], 0⟩ ops = .ok (g, s) ∧
      s.input.Holds q ∧ R s.stream inq outq room' ∧
      ∃ left tail sentLines sentTail, Lines.Split D (q ++ inq) left tail ∧ Lines.Split D g.sent sentLines sentTail ∧
        List.Forall₂ (· <:+ ·) (g.lines ++ left) sentLines ∧ tail <:+ sentTail := by
  obtain ⟨s₀, e₀, h₀⟩ := Device.fresh_ok bld n m hn hm D True hR
  obtain ⟨s, g, q, p, inq, outq, ok', e, h⟩ := Device.run_ok hP D n m fuel hfa hfm True ops true h₀ hp (fun _ => hd)
  obtain ⟨x, tl, h1, h2, h3⟩ := h.disciplined trivial
  obtain ⟨left, tail, hs⟩ := split_total' D (q ++ inq)
  obtain ⟨ls', t', hs', hf', ht'⟩ := hs.prepend h1
  obtain ⟨room', hR'⟩ := h.port
  refine ⟨s₀, s, g, q, inq, outq, room', e₀, e, h.inv.input.1.holds, hR', left, tail, tl ++ ls', t', hs, ?_, ?_, ht'⟩
  · have := h2 [] ls' t' (by simpa using hs')
    simpa using this
  · exact List.rel_append h3 hf'

/-- The hypotheses hold for a fresh serial port, and something happens: two lines arrive in pieces, one is answered, one is polled, the send buffer of two bytes slows the
answer down. -/
example : (∃ room, Serial.State 64 2 (Serial.create 64 2) [] [] room) ∧ ∃ s₀, BufStream.create .debug (Serial.create 64 2) 8 8 [10] = .ok s₀ ∧
    (Device.run Serial.port 70 s₀ ⟨[], [], [], [], 0⟩ [.inject [97, 98], .pull, .answer .debug [111, 107, 10], .inject [10, 99, 10], .pull, .answer .debug [111, 107, 10],
      .push, .extract 1, .push, .poll [0, 0, 0, 0, 0, 0, 0, 0, 0] 9, .extract 1]).map (fun x => (x.1.lines, x.1.written, x.1.received, x.2.stream.tx)) =
      .ok ([[97, 98], [99]], [111, 107, 10], [111, 107], [10]) :=
  ⟨⟨2, rfl, rfl, rfl, rfl, by simp [Serial.create], rfl⟩, _, rfl, rfl⟩

/-! ## C115 -/

/-- The replies in a history. -/
def Device.replies : List Device.Op → List (List Byte)
  | [] => []
  | .answer _ r :: ops => r :: replies ops
  | _ :: ops => replies ops

theorem written_step {σ : Type} {P : Port σ} {R : σ → List Byte → List Byte → Nat → Prop} {a : Nat} (hP : P.Lossless R a) {n m fuel : Nat} {D : List Byte}
    (ops : List Device.Op) : ∀ {s s' : BufStream σ} {g g' : Device.Log} {q p inq outq : List Byte} {ok : Bool},
    Device.Ok R D n m False ok s g q p inq outq → a < fuel → m < fuel → (∀ dst mx, Device.Op.poll dst mx ∈ ops → n < mx ∧ mx ≤ dst.length) → (∀ bytes, .write bytes ∉ ops) →
    Device.run P fuel s g ops = .ok (g', s') → ∃ rs : List (List Byte), rs.Sublist (Device.replies ops) ∧ g'.written = g.written ++ rs.flatten ∧
      g'.lines.length ≥ g.lines.length + rs.length := by
  induction ops with
  | nil =>
    intro s s' g g' q p inq outq ok h _ _ _ _ e
    simp [Device.run] at e
    obtain ⟨rfl, rfl⟩ := e
    exact ⟨[], by simp [Device.replies], by simp, by simp⟩
  | cons op ops ih =>
    intro s s' g g' q p inq outq ok h hfa hfm hp hw e
    obtain ⟨s₁, g₁, q₁, p₁, inq₁, outq₁, ok₁, e₁, h₁⟩ := Device.run_ok hP D n m fuel hfa hfm False [op] ok h
      (fun dst mx hm => hp dst mx (by simp at hm; simp [hm])) (·.elim)
    have hs : Device.step P fuel s g op = .ok (g₁, s₁) := by
      simp only [Device.run] at e₁
      cases hst : Device.step P fuel s g op with
      | error f => rw [hst] at e₁; cases e₁
      | ok x =>
        obtain ⟨x1, x2⟩ := x
        rw [hst] at e₁
        simpa using e₁
    simp only [Device.run, hs, res_bind_ok] at e
    obtain ⟨rs, hr, hwr, hl⟩ := ih h₁ hfa hfm (fun dst mx hm => hp dst mx (by simp [hm])) (fun b hm => hw b (by simp [hm])) e
    have key : (Device.replies (op :: ops) = Device.replies ops ∧ g₁.written = g.written ∧ g.lines.length ≤ g₁.lines.length) ∨
        (∃ r w, Device.replies (op :: ops) = r :: Device.replies ops ∧ g₁.written = g.written ++ w ∧ (w = r ∧ g₁.lines.length = g.lines.length + 1 ∨
          w = [] ∧ g.lines.length ≤ g₁.lines.length)) := by
      cases op with
      | inject bytes =>
        left
        simp only [Device.step] at hs
        cases hx : P.inject s.stream bytes with
        | error f => rw [hx] at hs; cases hs
        | ok x => rw [hx] at hs; simp at hs; obtain ⟨rfl, rfl⟩ := hs; simp [Device.replies]
      | extract k =>
        left
        simp only [Device.step] at hs
        cases hx : P.extract s.stream k with
        | error f => rw [hx] at hs; cases hs
        | ok x => rw [hx] at hs; simp at hs; obtain ⟨rfl, rfl⟩ := hs; simp [Device.replies]
      | pull =>
        left
        simp only [Device.step] at hs
        cases hx : s.pullInData P.stream fuel with
        | error f => rw [hx] at hs; cases hs
        | ok x => rw [hx] at hs; simp at hs; obtain ⟨rfl, rfl⟩ := hs; simp [Device.replies]
      | push =>
        left
        simp only [Device.step] at hs
        cases hx : s.pushOutData P.stream fuel with
        | error f => rw [hx] at hs; cases hs
        | ok x => rw [hx] at hs; simp at hs; obtain ⟨rfl, rfl⟩ := hs; simp [Device.replies]
      | poll dst mx =>
        left
        simp only [Device.step] at hs
        cases hx : s.input.hasLine with
        | error f => rw [hx] at hs; cases hs
        | ok x =>
          rw [hx] at hs
          cases x with
          | false => simp at hs; obtain ⟨rfl, rfl⟩ := hs; simp [Device.replies]
          | true =>
            simp only [res_bind_ok, if_true] at hs
            cases hy : s.getNextLine dst mx none with
            | error f => rw [hy] at hs; cases hs
            | ok y => rw [hy] at hs; simp at hs; obtain ⟨rfl, rfl⟩ := hs; simp [Device.replies]
      | write bytes => exact absurd (by simp) (hw bytes)
      | answer b r =>
        right
        have hD := h.delims
        rcases Lines.first_or_none s.input.delims q with hno | ⟨line, rest, hf⟩
        · simp [Device.step, Transaction.new_none h.inv hno b] at hs
          obtain ⟨rfl, rfl⟩ := hs
          exact ⟨r, [], rfl, by simp, .inr ⟨rfl, Nat.le_refl _⟩⟩
        · obtain ⟨v, en, -, -⟩ := Transaction.new_some h.inv hf b
          obtain ⟨s₂, w, e₂, -, -, -, hw'⟩ := Device.answer_ok h.inv hf b g v r
          simp only [Device.step, en, e₂, res_bind_ok] at hs
          simp at hs
          obtain ⟨rfl, rfl⟩ := hs
          refine ⟨r, w, rfl, rfl, ?_⟩
          split at hw' <;> simp [hw']
    rcases key with ⟨k1, k2, k3⟩ | ⟨r, w, k1, k2, ⟨rfl, k3⟩ | ⟨rfl, k3⟩⟩
    · exact ⟨rs, by rw [k1]; exact hr, by rw [hwr, k2], by omega⟩
    · exact ⟨w :: rs, by rw [k1]; exact hr.cons_cons _, by simp [hwr, k2], by simp; omega⟩
    · exact ⟨rs, by rw [k1]; exact hr.cons _, by simp [hwr, k2], by omega⟩

/-- **C115.** On any port that keeps its promises, in debug and release builds: if the application writes through transactions only, and asks for the space left before, then
what it has written after any history is a sequence of whole replies, in the order they were given, at most one for each line. With `C114_history` this is what the remote
side received and what is on its way. -/
theorem C115_whole_replies {σ : Type} {P : Port σ} {R : σ → List Byte → List Byte → Nat → Prop} {a : Nat} (hP : P.Lossless R a) {st : σ} {room : Nat} (hR : R st [] [] room)
    (bld : Build) (n m : Nat) (hn : 0 < n) (hm : 0 < m) (D : List Byte) (fuel : Nat) (hfa : a < fuel) (hfm : m < fuel) (ops : List Device.Op)
    (hp : ∀ dst mx, Device.Op.poll dst mx ∈ ops → n < mx ∧ mx ≤ dst.length) (hw : ∀ bytes, .write bytes ∉ ops) :
    ∃ s₀ s g p inq outq room', BufStream.create bld st n m D = .ok s₀ ∧ Device.run P fuel s₀ ⟨[], [], [], [], 0⟩ ops = .ok (g, s) ∧
      s.output.Holds p ∧ R s.stream inq outq room' ∧
      ∃ rs : List (List Byte), rs.Sublist (Device.replies ops) ∧ rs.length ≤ g.lines.length ∧ g.received ++ outq ++ p = rs.flatten := by
  obtain ⟨s₀, e₀, h₀⟩ := Device.fresh_ok bld n m hn hm D False hR
  obtain ⟨s, g, q, p, inq, outq, ok', e, h⟩ := Device.run_ok hP D n m fuel hfa hfm False ops true h₀ hp (·.elim)
  obtain ⟨rs, h1, h2, h3⟩ := written_step hP ops h₀ hfa hfm hp hw e
  obtain ⟨room', hR'⟩ := h.port
  refine ⟨s₀, s, g, p, inq, outq, room', e₀, e, h.inv.output.holds, hR', rs, h1, by simpa using h3, ?_⟩
  have := h.output
  rw [h2] at this
  simpa using this.symm

/-- Two requests, room for one reply at a time: the second reply is not sent, and not cut. -/
example : ∃ s₀, BufStream.create .release (Serial.create 64 2) 8 5 [10] = .ok s₀ ∧
    (Device.run Serial.port 70 s₀ ⟨[], [], [], [], 0⟩ [.inject [97, 10, 98, 10], .pull, .answer .release [111, 107, 10], .answer .release [111, 107, 10]]).map
      (fun x => (x.1.lines, x.1.written)) = .ok ([[97], [98]], [111, 107, 10]) :=
  ⟨_, rfl, rfl⟩

end Spine

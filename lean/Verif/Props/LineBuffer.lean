import Verif.Proofs.LineBuffer
/-!
# Properties C07–C11: `LineBuffer`
-/

namespace Spine

open LineBuf

/-! ## C07 -/

/-- **C07**. With a complete line in the buffer, `length_of_next_line()` is its length plus one for the
delimiter and `has_line()` is true; without one they are 0 and false. -/
theorem C07_length_of_next_line (n : Nat) (hn : 0 < n) (l : LineBuf) (h : Reachable n l) (q : List Byte)
    (hq : l.Holds q) :
    (∀ line rest, Lines.First l.delims q line rest →
      l.lengthOfNextLine = .ok (line.length + 1) ∧ l.hasLine = .ok true) ∧
    (Lines.NoLine l.delims q → l.lengthOfNextLine = .ok 0 ∧ l.hasLine = .ok false) := by
  obtain ⟨q', hq'⟩ := h.rep hn
  obtain rfl := hq'.holds.unique hq
  refine ⟨fun line rest hf => ?_, fun hno => ?_⟩
  · have := length_first hq' hf
    exact ⟨this, by simp [hasLine, this]⟩
  · have := length_none hq' hno
    exact ⟨this, by simp [hasLine, this]⟩

/-- **C07**, as an equivalence on the returned number. -/
theorem C07_length_zero_iff (n : Nat) (hn : 0 < n) (l : LineBuf) (h : Reachable n l) (q : List Byte)
    (hq : l.Holds q) : l.lengthOfNextLine = .ok 0 ↔ ∀ c ∈ q, c ∉ l.delims := by
  obtain ⟨h1, h2⟩ := C07_length_of_next_line n hn l h q hq
  refine ⟨fun e => ?_, fun hno => (h2 hno).1⟩
  rcases Lines.first_or_none l.delims q with hno | ⟨line, rest, hf⟩
  · exact hno
  · rw [(h1 line rest hf).1] at e
    cases e

/-- The hypotheses of C07–C11 hold for a wrapped-around buffer with a complete line `"ab"` and a partial
one: capacity 5, delimiters CR and LF. -/
example : ∃ l : LineBuf, Reachable 5 l ∧ l.Holds [97, 98, 10, 99] ∧
    Lines.First l.delims [97, 98, 10, 99] [97, 98] [99] := by
  refine ⟨⟨⟨[10, 99, 120, 97, 98], 2, 3, 0, false⟩, [13, 10]⟩,
    ⟨.debug, [13, 10], _, [.ring (.pushMany [120, 120, 120, 97, 98] false), .ring (.popMany [0, 0, 0] 3),
      .ring (.pushMany [10, 99] false)], rfl, rfl⟩, ⟨rfl, ?_⟩, ⟨10, by decide, rfl, by decide⟩⟩
  intro i
  match i with
  | 0 => rfl
  | 1 => rfl
  | 2 => rfl
  | 3 => rfl
  | i + 4 => simp [Ring.peekAt, Ring.usedSpace, Ring.full, Ring.capacity]

/-! ## C08 -/

/-- **C08**, success. The caller's memory `dst` (at least `max` bytes) receives the line and a NUL and is
untouched beyond; the buffer keeps exactly what follows the delimiter. The optional third argument may be
omitted or be the value of `length_of_next_line()`. -/
theorem C08_get_next_line (n : Nat) (hn : 0 < n) (l : LineBuf) (h : Reachable n l) (q : List Byte)
    (hq : l.Holds q) (line rest : List Byte) (hf : Lines.First l.delims q line rest) (dst : List Byte) (max : Nat)
    (hdst : max ≤ dst.length) (hfit : line.length + 1 ≤ max) (d : Option Nat)
    (hd : d = none ∨ .ok (d.getD 0) = l.lengthOfNextLine) :
    ∃ l', l.getNextLine dst max d = .ok ((line.length, line ++ [0] ++ dst.drop (line.length + 1)), l') ∧
      l'.Holds rest ∧ l'.delims = l.delims := by
  obtain ⟨q', hq'⟩ := h.rep hn
  obtain rfl := hq'.holds.unique hq
  have hd' : d = none ∨ d = some (line.length + 1) := by
    rcases hd with hd | hd
    · exact .inl hd
    · rw [length_first hq' hf] at hd
      cases d with
      | none => exact .inl rfl
      | some k => simp at hd; exact .inr (by rw [hd])
  obtain ⟨l', e, h', hdel⟩ := getNextLine_first hq' hf hd' dst max hfit hdst
  exact ⟨l', e, h'.holds, hdel⟩

/-- **C08**, refusal. Without a complete line, or when line and NUL do not fit into `max`, the call
returns 0 and changes nothing, whatever the size of the caller's memory. -/
theorem C08_get_next_line_refused (n : Nat) (hn : 0 < n) (l : LineBuf) (h : Reachable n l) (q : List Byte)
    (hq : l.Holds q) (dst : List Byte) (max : Nat)
    (hno : Lines.NoLine l.delims q ∨ ∃ line rest, Lines.First l.delims q line rest ∧ max < line.length + 1) :
    l.getNextLine dst max none = .ok ((0, dst), l) := by
  obtain ⟨q', hq'⟩ := h.rep hn
  obtain rfl := hq'.holds.unique hq
  rcases hno with hno | ⟨line, rest, hf, hm⟩
  · exact getNextLine_none hq' hno dst max
  · exact getNextLine_long hq' hf (.inl rfl) dst max hm

/-- **C08**, memory. Whatever the state and arguments, with at least `max` bytes at `dst` the call does not
fault, and it changes no byte of the caller's memory at index `max` or later. -/
theorem C08_get_next_line_memory (n : Nat) (hn : 0 < n) (l : LineBuf) (h : Reachable n l)
    (dst : List Byte) (max : Nat) (hdst : max ≤ dst.length) :
    ∃ k dst' l', l.getNextLine dst max none = .ok ((k, dst'), l') ∧ dst'.length = dst.length ∧
      dst'.drop max = dst.drop max := by
  obtain ⟨q, hq⟩ := h.rep hn
  rcases Lines.first_or_none l.delims q with hno | ⟨line, rest, hf⟩
  · exact ⟨0, dst, l, getNextLine_none hq hno dst max, rfl, rfl⟩
  · by_cases hm : line.length + 1 ≤ max
    · obtain ⟨l', e, -⟩ := getNextLine_first hq hf (.inl rfl) dst max hm hdst
      refine ⟨_, _, _, e, ?_, ?_⟩
      · simp; omega
      · rw [List.drop_append]
        simp
        rw [List.drop_eq_nil_of_le (by simp; omega)]
        simp
        congr 1; omega
    · exact ⟨0, dst, l, getNextLine_long hq hf (.inl rfl) dst max (by omega), rfl, rfl⟩

/-! ## C09 -/

theorem client_split {n : Nat} (D : List Byte) : ∀ (ops : List ClientOp) {l : LineBuf} {q : List Byte},
    Ring.Rep n l.ring q → l.delims = D →
    (∀ dst m, ClientOp.poll dst m ∈ ops → n < m ∧ m ≤ dst.length) →
    ∃ fed lines l' q', l.client ops = .ok ((fed, lines), l') ∧ Ring.Rep n l'.ring q' ∧
      ∀ s ls t, Lines.Split D (q' ++ s) ls t → Lines.Split D (q ++ fed ++ s) (lines ++ ls) t
  | [], l, q, h, _, _ => ⟨[], [], l, q, rfl, h, by simp⟩
  | .feed chunk :: ops, l, q, h, hD, hp => by
    obtain ⟨r₁, e₁, h₁, -⟩ := Ring.Rep.pushMany_false chunk h
    obtain ⟨fed, lines, l', q', e, h', hs⟩ := client_split D ops (l := { l with ring := r₁ }) h₁ hD
      (fun dst m hm => hp dst m (by simp [hm]))
    refine ⟨chunk.take (min chunk.length (n - q.length)) ++ fed, lines, l', q', ?_, h', ?_⟩
    · simp [client, pushStr, e₁, e]
    · intro s ls t hst
      have := hs s ls t hst
      have ht : chunk.take (min chunk.length (n - q.length)) = chunk.take (n - q.length) := by
        rw [List.take_eq_take_iff]; omega
      rw [ht]
      simpa using this
  | .poll dst m :: ops, l, q, h, hD, hp => by
    obtain ⟨hm, hdst⟩ := hp dst m (by simp)
    rcases Lines.first_or_none l.delims q with hno | ⟨line, rest, hf⟩
    · obtain ⟨fed, lines, l', q', e, h', hs⟩ := client_split D ops h hD
        (fun dst m hm => hp dst m (by simp [hm]))
      exact ⟨fed, lines, l', q', by simp [client, hasLine, length_none h hno, e], h', hs⟩
    · have hlen : line.length + 1 ≤ n := by
        have := h.qle
        obtain ⟨d, -, he, -⟩ := hf
        rw [he] at this
        simp at this
        omega
      obtain ⟨l₁, e₁, h₁, hd₁⟩ := getNextLine_first h hf (.inl rfl) dst m (by omega) hdst
      obtain ⟨fed, lines, l', q', e, h', hs⟩ := client_split D ops h₁ (hd₁.trans hD)
        (fun dst m hm => hp dst m (by simp [hm]))
      refine ⟨fed, line :: lines, l', q', ?_, h', ?_⟩
      · have ht : (line ++ [0] ++ dst.drop (line.length + 1)).take line.length = line := by
          rw [List.append_assoc, List.take_left']; rfl
        simp only [client, hasLine, length_first h hf, res_bind_ok, res_pure, e₁, e, ht]
        simp
      · intro s ls t hst
        have := hs s ls t hst
        rw [hD] at hf
        exact .line (hf.append fed |>.append s) this

/-- **C09**. A client feeds chunks and polls for lines in any order, with a destination that can hold any
line. Then the lines it has used, followed by the lines still in the buffer, are exactly the lines of the
byte string the buffer accepted, in order, and the unterminated rest is the same. -/
theorem C09_lines_lose_nothing (n : Nat) (hn : 0 < n) (b : Build) (D : List Byte) (ops : List ClientOp)
    (hp : ∀ dst m, ClientOp.poll dst m ∈ ops → n < m ∧ m ≤ dst.length) :
    ∃ l₀ fed used l q, create b n D = .ok l₀ ∧ l₀.client ops = .ok ((fed, used), l) ∧ l.Holds q ∧
      ∃ left tail, Lines.Split D q left tail ∧ Lines.Split D fed (used ++ left) tail := by
  obtain ⟨l₀, e₀, h₀, hD, -⟩ := create_rep hn b D
  obtain ⟨fed, used, l, q, e, h, hs⟩ := client_split D ops h₀ hD hp
  obtain ⟨left, tail, hsp⟩ := split_total' D q
  refine ⟨l₀, fed, used, l, q, e₀, e, h.holds, left, tail, hsp, ?_⟩
  have := hs [] left tail (by simpa using hsp)
  simpa using this

/-- The client of C09 on a buffer of 4 bytes: `"a\nb"`, poll, `"c\n"`, poll, poll, `"d"`. -/
example : (do
    let l₀ ← create .debug 4 [10]
    let (x, _) ← l₀.client [.feed [97, 10, 98], .poll [0, 0, 0, 0, 0] 5, .feed [99, 10], .poll [0, 0, 0, 0, 0] 5,
      .poll [0, 0, 0, 0, 0] 5, .feed [100]]
    return x) = (.ok ([97, 10, 98, 99, 10, 100], [[97], [98, 99]]) : Res _) := rfl

/-! ## C10 -/

/-- **C10**, the part that holds: when the buffer has a line, `get_next_line_view()` returns a view of the
line's length, and if the view does not run past the end of the storage, reading it gives the line.
Missing: lines that straddle the end of the storage, see the counterexample. -/
theorem C10_line_view_partial (n : Nat) (hn : 0 < n) (l : LineBuf) (h : Reachable n l) (q : List Byte)
    (hq : l.Holds q) (line rest : List Byte) (hf : Lines.First l.delims q line rest) :
    ∃ v, l.getNextLineView none = .ok (some v) ∧ v.size = line.length ∧
      (v.start + v.size ≤ n → l.readView v = .ok line) ∧ (n < v.start + v.size → l.readView v = .error .ub) := by
  obtain ⟨q', hq'⟩ := h.rep hn
  obtain rfl := hq'.holds.unique hq
  have hpos : 0 < q'.length := by
    obtain ⟨d, -, he, -⟩ := hf
    rw [he]; simp; omega
  have hw : wrap n l.ring.tail = l.ring.tail := by
    have := hq'.tailLt
    unfold wrap
    simp [this]
  refine ⟨⟨l.ring.tail, line.length⟩, ?_, rfl, ?_, ?_⟩
  · unfold getNextLineView
    simp [discovered_first hq' hf (.inl rfl), hq'.peekPtr hpos, hw]
  · intro hle
    unfold readView
    rw [hq'.len, if_pos hle]
    congr 1
    have hlt := hq'.tailLt
    simp only at hle ⊢
    obtain ⟨d, -, he, -⟩ := hf
    apply List.ext_getElem?
    intro i
    by_cases hi : i < line.length
    · have hs := hq'.slots i (by rw [he]; simp; omega)
      have hwi : wrap n (l.ring.tail + i) = l.ring.tail + i := by unfold wrap; rw [if_pos (by omega)]
      rw [hwi] at hs
      rw [List.getElem?_take_of_lt hi, List.getElem?_drop, hs, List.getElem?_eq_getElem hi]
      congr 1
      simp only [he]
      rw [List.getElem_append_left hi]
    · rw [List.getElem?_eq_none (by simp; omega), List.getElem?_eq_none (by omega)]
  · intro hlt
    unfold readView
    rw [hq'.len, if_neg (Nat.not_le.mpr hlt)]

/-- Without a complete line there is no view. -/
theorem C10_no_line_no_view (n : Nat) (hn : 0 < n) (l : LineBuf) (h : Reachable n l) (q : List Byte)
    (hq : l.Holds q) (hno : Lines.NoLine l.delims q) : l.getNextLineView none = .ok none := by
  obtain ⟨q', hq'⟩ := h.rep hn
  obtain rfl := hq'.holds.unique hq
  simp [getNextLineView, discovered, length_none hq' hno]

/-- A history after which the next line straddles the end of a 4 byte storage. -/
def straddlingLine : List LineBuf.Op :=
  [.ring (.pushMany [120, 120, 10] false), .getNextLine [0, 0, 0, 0, 0] 5 none, .ring (.pushMany [97, 98, 99, 10] false)]

/-- The code violates C10: with a buffer of 4 bytes, after `"xx\n"` has been read and `"abc"`, LF pushed,
`get_next_line` returns `"abc"` but the view reads past the end of the storage. -/
theorem C10_line_view_counterexample :
    ∃ l₀ l : LineBuf, create .debug 4 [10] = .ok l₀ ∧ l₀.run straddlingLine = .ok l ∧ (l.getNextLine [0, 0, 0, 0] 4 none).map (·.1) = .ok (3, [97, 98, 99, 0]) ∧
      ∃ v, l.getNextLineView none = .ok (some v) ∧ l.readView v = .error .ub :=
  ⟨_, _, rfl, rfl, rfl, _, rfl, rfl⟩

/-! ## C11 -/

/-- **C11**. `drop_next_line()` removes exactly the first line with its delimiter and returns true. -/
theorem C11_drop_next_line (n : Nat) (hn : 0 < n) (l : LineBuf) (h : Reachable n l) (q : List Byte)
    (hq : l.Holds q) (line rest : List Byte) (hf : Lines.First l.delims q line rest) :
    ∃ l', l.dropNextLine none = .ok (true, l') ∧ l'.Holds rest ∧ l'.delims = l.delims := by
  obtain ⟨q', hq'⟩ := h.rep hn
  obtain rfl := hq'.holds.unique hq
  obtain ⟨l', e, h', hd, -⟩ := dropNextLine_first hq' hf (.inl rfl)
  exact ⟨l', e, h'.holds, hd⟩

/-- **C11**. Without a complete line `drop_next_line()` does nothing and returns false. -/
theorem C11_drop_next_line_none (n : Nat) (hn : 0 < n) (l : LineBuf) (h : Reachable n l) (q : List Byte)
    (hq : l.Holds q) (hno : Lines.NoLine l.delims q) : l.dropNextLine none = .ok (false, l) := by
  obtain ⟨q', hq'⟩ := h.rep hn
  obtain rfl := hq'.holds.unique hq
  exact dropNextLine_none hq' hno

end Spine

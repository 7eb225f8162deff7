import Verif.Proofs.Stream
/-!
# Lemmas about transactions
-/

namespace Spine.Transaction

open Ring BufStream

variable {σ : Type} {n m : Nat} {s : BufStream σ} {q p : List Byte}

theorem new_some (h : Inv n m s q p) {line rest : List Byte} (hf : Lines.First s.input.delims q line rest)
    (b : Build) : ∃ v, new b s = .ok (some ⟨true, some v, 0, false⟩) ∧ v.size = line.length ∧
      s.input.getNextLineView none = .ok (some v) := by
  have hl := LineBuf.length_first h.input.1 hf
  have hpos : 0 < q.length := by
    obtain ⟨d, -, he, -⟩ := hf
    rw [he]; simp; omega
  have hp := h.input.1.peekPtr hpos
  have hd := LineBuf.discovered_first h.input.1 hf (d := none) (.inl rfl)
  have hd' := LineBuf.discovered_first h.input.1 hf (d := some (line.length + 1)) (.inr rfl)
  refine ⟨⟨wrap n (s.input.ring.tail + 0), line.length⟩, ?_, rfl, ?_⟩
  · unfold new open' LineBuf.getNextLineView
    simp only [hl, res_bind_ok, hd', hp]
    cases b <;> simp [spnAssert]
  · unfold LineBuf.getNextLineView
    simp [hd, hp]

theorem new_none (h : Inv n m s q p) (hno : Lines.NoLine s.input.delims q) (b : Build) :
    new b s = .ok none := by
  simp [new, LineBuf.length_none h.input.1 hno]

/-- Sending a reply. -/
theorem reply_spec (b : Build) : ∀ (ps : List Piece) {s : BufStream σ} {p : List Byte} (t : Transaction),
    Inv n m s q p → t.attached = true → t.finalized = false →
    (b = .release ∨ (Piece.bytes ps).length < m - p.length ∨ ps = []) →
    ∃ s', t.reply b s ps = .ok (min (Piece.bytes ps).length (m - p.length),
        { t with queued := t.queued + min (Piece.bytes ps).length (m - p.length) }, s') ∧
      Inv n m s' q (p ++ (Piece.bytes ps).take (m - p.length)) ∧ s'.input = s.input ∧ s'.stream = s.stream ∧
      s'.output.delims = s.output.delims
  | [], s, p, t, h, ha, hfin, hb => ⟨s, by simp [reply, Piece.bytes], by simpa [Piece.bytes] using h, rfl, rfl, rfl⟩
  | .char v :: ps, s, p, ⟨att, inc, qd, fin⟩, h, ha, hfin, hb => by
    change att = true at ha
    change fin = false at hfin
    subst ha hfin
    have hfree := h.output.free
    simp only [Piece.bytes]
    by_cases hq : p.length < m
    · obtain ⟨r', e, h', -⟩ := h.output.push_space v false hq
      obtain ⟨s', e', i', hi, hst, hde⟩ := reply_spec b ps
        (s := { s with output := { s.output with ring := r' } }) ⟨true, inc, qd + 1, false⟩
        ⟨h.input, h'⟩ rfl rfl (by
          rcases hb with hb | hb | hb
          · exact .inl hb
          · simp [Piece.bytes] at hb ⊢; omega
          · cases hb)
      refine ⟨s', ?_, ?_, hi, hst, hde⟩
      · unfold reply outgoingChar spaceLeft deref bufferedWrite
        simp only [hfree, Bool.not_false, if_true, res_bind_ok, res_pure]
        rw [if_neg (by omega)]
        have : decide (m - p.length > 0) = true := by simp; omega
        simp only [this, spnAssert_true, e, res_bind_ok, if_true, e']
        have hx : 1 + min (Piece.bytes ps).length (m - (p ++ [v]).length) =
            min (v :: Piece.bytes ps).length (m - p.length) := by simp; omega
        simp only [Nat.add_assoc, hx]
      · have hx : m - p.length = (m - (p ++ [v]).length) + 1 := by simp; omega
        rw [hx, List.take_succ_cons]
        simpa using i'
    · have hz : m - p.length = 0 := by omega
      rcases hb with rfl | hb | hb
      · obtain ⟨s', e', i', hi, hst, hde⟩ := reply_spec .release ps ⟨true, inc, qd, false⟩ h rfl rfl (.inl rfl)
        refine ⟨s', ?_, by simpa [hz] using i', hi, hst, hde⟩
        unfold reply outgoingChar spaceLeft deref
        simp [hfree, hz, spnAssert, e']
      · rw [hz] at hb; omega
      · cases hb
  | .str vs :: ps, s, p, ⟨att, inc, qd, fin⟩, h, ha, hfin, hb => by
    change att = true at ha
    change fin = false at hfin
    subst ha hfin
    have hfree := h.output.free
    have hple := h.output.qle
    simp only [Piece.bytes]
    obtain ⟨r', e, h', -⟩ := Rep.pushMany_false (vs.take (min (m - p.length) vs.length)) h.output
    have htk : (vs.take (min (m - p.length) vs.length)).take (m - p.length) = vs.take (m - p.length) := by
      rw [List.take_take, List.take_eq_take_iff]; omega
    have hlen : min (vs.take (min (m - p.length) vs.length)).length (m - p.length) = min vs.length (m - p.length) := by
      simp; omega
    rw [htk] at h'
    rw [hlen] at e
    have hl2 : (p ++ vs.take (m - p.length)).length = p.length + min vs.length (m - p.length) := by
      simp; omega
    obtain ⟨s', e', i', hi, hst, hde⟩ := reply_spec b ps
        (s := { s with output := { s.output with ring := r' } })
        ⟨true, inc, qd + min vs.length (m - p.length), false⟩
        ⟨h.input, h'⟩ rfl rfl (by
          rcases hb with hb | hb | hb
          · exact .inl hb
          · simp only [Piece.bytes, List.length_append] at hb
            rw [hl2]; omega
          · cases hb)
    rw [hl2] at e' i'
    refine ⟨s', ?_, ?_, hi, hst, hde⟩
    · unfold reply outgoing spaceLeft deref bufferedWriteMany
      simp only [hfree, Bool.not_false, spnAssert_true, if_true, res_bind_ok, res_pure, e]
      have hx : min vs.length (m - p.length) +
          min (Piece.bytes ps).length (m - (p.length + min vs.length (m - p.length))) =
          min (vs ++ Piece.bytes ps).length (m - p.length) := by simp; omega
      rcases hb with rfl | hb | hb
      · simp only [spnAssert_release, res_bind_ok, e', Nat.add_assoc, hx]
      · have : decide (m - p.length > vs.length) = true := by
          simp only [Piece.bytes, List.length_append] at hb
          simp; omega
        simp only [this, spnAssert_true, res_bind_ok, e', Nat.add_assoc, hx]
      · cases hb
    · rw [List.append_assoc] at i'
      have hx : vs.take (m - p.length) ++ (Piece.bytes ps).take (m - (p.length + min vs.length (m - p.length))) =
          (vs ++ Piece.bytes ps).take (m - p.length) := by
        rw [List.take_append]
        congr 1
        rw [List.take_eq_take_iff]; omega
      rwa [hx] at i'

theorem finalize_first (b : Build) (t : Transaction) (h : Inv n m s q p) (ha : t.attached = true)
    (hfin : t.finalized = false) {line rest : List Byte} (hf : Lines.First s.input.delims q line rest) :
    ∃ s', t.finalize b s = .ok (⟨true, none, 0, true⟩, s') ∧ Inv n m s' rest p ∧ s'.output = s.output ∧
      s'.stream = s.stream ∧ s'.input.delims = s.input.delims := by
  obtain ⟨l', e, h', hd, ho⟩ := LineBuf.dropNextLine_first h.input.1 hf (d := none) (.inl rfl)
  refine ⟨{ s with input := l' }, ?_, ⟨⟨h', by simp [ho]⟩, h.output⟩, rfl, rfl, hd⟩
  unfold finalize deref BufStream.dropNextLine
  cases b <;> simp [spnAssert, hfin, ha, e]

theorem commit_first (b : Build) (t : Transaction) (h : Inv n m s q p) (ha : t.attached = true)
    (hfin : t.finalized = false) {line rest : List Byte} (hf : Lines.First s.input.delims q line rest) :
    ∃ s', t.commit b s = .ok (⟨true, none, 0, true⟩, s') ∧ Inv n m s' rest p ∧ s'.output = s.output ∧
      s'.stream = s.stream ∧ s'.input.delims = s.input.delims := by
  obtain ⟨att, inc, qd, fin⟩ := t
  change att = true at ha
  change fin = false at hfin
  subst ha hfin
  obtain ⟨s', e, r⟩ := finalize_first b ⟨true, inc, 0, false⟩ h rfl rfl hf
  refine ⟨s', ?_, r⟩
  unfold commit
  cases b <;> simp [spnAssert, e]

/-- `undo` on an attached transaction never faults and does not touch the input. -/
theorem undo_any (t : Transaction) (h : Inv n m s q p) (ha : t.attached = true) :
    ∃ s' p', t.undo s 0 = .ok s' ∧ Inv n m s' q p' ∧ s'.input = s.input ∧ s'.stream = s.stream := by
  have hpos := h.output.pos
  by_cases hk : 0 < t.queued ∨ p.length < m
  · obtain ⟨r', e, h', -⟩ := h.output.dropLast t.queued hk
    exact ⟨{ s with output := { s.output with ring := r' } }, _, by simp [undo, deref, ha, outputDropLast, e],
      ⟨h.input, h'⟩, rfl, rfl⟩
  · have hple := h.output.qle
    obtain ⟨r', e, h'⟩ := h.output.dropLast_zero_full (by omega)
    have : t.queued = 0 := by omega
    exact ⟨{ s with output := { s.output with ring := r' } }, _,
      by simp [undo, deref, ha, outputDropLast, e, this], ⟨h.input, h'⟩, rfl, rfl⟩

theorem abort_first (b : Build) (t : Transaction) (h : Inv n m s q p) (ha : t.attached = true)
    (hfin : t.finalized = false) {line rest : List Byte} (hf : Lines.First s.input.delims q line rest)
    {s₁ : BufStream σ} {p₁ : List Byte} (e₁ : t.undo s 0 = .ok s₁) (h₁ : Inv n m s₁ q p₁)
    (hin : s₁.input = s.input) (hst : s₁.stream = s.stream) :
    ∃ s', t.abort b s = .ok (⟨true, none, 0, true⟩, s') ∧ Inv n m s' rest p₁ ∧
      s'.stream = s.stream ∧ s'.input.delims = s.input.delims := by
  obtain ⟨s', e, i, -, hs', hd⟩ := finalize_first b t h₁ ha hfin (line := line) (rest := rest) (by rw [hin]; exact hf)
  refine ⟨s', ?_, i, by rw [hs', hst], by rw [hd, hin]⟩
  unfold abort
  cases b <;> simp [spnAssert, hfin, e₁, e]

/-- In a release build, ending a finalized transaction again does nothing to the input. -/
theorem ends_finalized : ∀ (es : List End) {s : BufStream σ} {p : List Byte} (t : Transaction), Inv n m s q p →
    t.attached = true → t.finalized = true →
    ∃ s' p' t', t.ends .release s es = .ok (t', s') ∧ Inv n m s' q p' ∧ s'.input = s.input ∧
      s'.stream = s.stream ∧ t'.finalized = true ∧ t'.attached = true
  | [], s, p, t, h, ha, hfin => ⟨s, p, t, rfl, h, rfl, rfl, hfin, ha⟩
  | .commit :: es, s, p, t, h, ha, hfin => by
    obtain ⟨s', p', t', e, r⟩ := ends_finalized es { t with queued := 0 } h ha hfin
    refine ⟨s', p', t', ?_, r⟩
    unfold ends commit finalize
    simpa [spnAssert, hfin] using e
  | .abort :: es, s, p, t, h, ha, hfin => by
    obtain ⟨s₁, p₁, e₁, h₁, hin, hst⟩ := undo_any t h ha
    obtain ⟨s', p', t', e, i, hi, hs, r⟩ := ends_finalized es t h₁ ha hfin
    refine ⟨s', p', t', ?_, i, by rw [hi, hin], by rw [hs, hst], r⟩
    unfold ends abort finalize
    simpa [spnAssert, hfin, e₁] using e

/-- The first call that ends a transaction. -/
theorem ends_once (b : Build) (t : Transaction) (h : Inv n m s q p) (ha : t.attached = true)
    (hfin : t.finalized = false) {line rest : List Byte} (hf : Lines.First s.input.delims q line rest) (x : End) :
    ∃ s₁ p₁, (∀ es, t.ends b s (x :: es) = ends b ⟨true, none, 0, true⟩ s₁ es) ∧ Inv n m s₁ rest p₁ ∧
      s₁.stream = s.stream := by
  cases x with
  | commit =>
    obtain ⟨s₁, e₁, i₁, -, hst, -⟩ := commit_first b t h ha hfin hf
    exact ⟨s₁, p, fun es => by simp only [ends, e₁, res_bind_ok], i₁, hst⟩
  | abort =>
    obtain ⟨s', p', eu, iu, hin, hst⟩ := undo_any t h ha
    obtain ⟨s₁, e₁, i₁, hst₁, -⟩ := abort_first b t h ha hfin hf eu iu hin hst
    exact ⟨s₁, p', fun es => by simp only [ends, e₁, res_bind_ok], i₁, hst₁⟩

theorem ends_debug_finalized (t : Transaction) (hfin : t.finalized = true) (y : End) (es : List End) :
    t.ends .debug s (y :: es) = .error .assertFailed := by
  cases y <;> simp [ends, commit, abort, hfin]

end Spine.Transaction

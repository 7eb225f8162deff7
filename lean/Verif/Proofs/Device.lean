import Mathlib.Data.List.Forall2
import Verif.Proofs.Transaction
/-!
# Lemmas about the device: a client of a port, `BufferedStream` and `Transaction`
-/

namespace Spine

theorem Lines.Split.prepend {D x q : List Byte} (hx : Lines.NoLine D x) {ls : List (List Byte)} {t : List Byte}
    (h : Lines.Split D q ls t) :
    ∃ ls' t', Lines.Split D (x ++ q) ls' t' ∧ List.Forall₂ (· <:+ ·) ls ls' ∧ t <:+ t' := by
  cases h with
  | done hno =>
    refine ⟨[], x ++ q, .done ?_, .nil, List.suffix_append _ _⟩
    intro c hc
    rcases List.mem_append.mp hc with hc | hc
    · exact hx c hc
    · exact hno c hc
  | @line _ line rest lines _ hf hs =>
    obtain ⟨d, hd, he, hl⟩ := hf
    refine ⟨(x ++ line) :: lines, t, .line ⟨d, hd, by simp [he], ?_⟩ hs, .cons (List.suffix_append _ _) ?_,
      List.suffix_refl _⟩
    · intro c hc
      rcases List.mem_append.mp hc with hc | hc
      · exact hx c hc
      · exact hl c hc
    · clear hs
      induction lines with
      | nil => exact .nil
      | cons a l ih => exact .cons (List.suffix_refl _) ih

/-- Lines with their delimiters. -/
def Lines.bytes (ends : List (List Byte × Byte)) : List Byte := ends.flatMap fun e => e.1 ++ [e.2]

namespace Device

open BufStream Mock

/-- What is true after a history. `disc` says whether the history so far polled between pulls. -/
structure Ok {σ : Type} (R : σ → List Byte → List Byte → Nat → Prop) (D : List Byte) (n m : Nat) (disc : Prop) (ok : Bool) (s : BufStream σ) (g : Log)
    (q p inq outq : List Byte) : Prop where
  inv : Inv n m s q p
  port : ∃ room, R s.stream inq outq room
  delims : s.input.delims = D
  output : g.written = g.received ++ (outq ++ p)
  input : ∃ ends : List (List Byte × Byte), ends.map Prod.fst = g.lines ∧ (∀ e ∈ ends, e.2 ∈ D) ∧
    (Lines.bytes ends ++ (q ++ inq)).Sublist g.sent ∧
    g.sent.length = (Lines.bytes ends ++ (q ++ inq)).length + g.lost
  disciplined : disc → ∃ (x : List Byte) (tl : List (List Byte)), Lines.NoLine D x ∧
    (∀ s ls t, Lines.Split D (x ++ (q ++ inq) ++ s) ls t → Lines.Split D (g.sent ++ s) (tl ++ ls) t) ∧
    List.Forall₂ (· <:+ ·) g.lines tl
  ready : disc → ok = true → s.input.ring.overwritten = 0 ∨ Lines.NoLine D q

/-- A line has been used, and `w` written. -/
theorem Ok.consume {σ : Type} {R : σ → List Byte → List Byte → Nat → Prop} {D : List Byte} {n m : Nat} {disc : Prop} {ok : Bool} {s s₁ : BufStream σ} {g : Log}
    {q p inq outq line rest w : List Byte} (h : Ok R D n m disc ok s g q p inq outq) (hf : Lines.First D q line rest) (hi : Inv n m s₁ rest (p ++ w))
    (hs : s₁.stream = s.stream) (hd : s₁.input.delims = D) :
    Ok R D n m disc true s₁ { g with lines := g.lines ++ [line], written := g.written ++ w } rest (p ++ w) inq outq := by
  obtain ⟨d, hd', he, hln⟩ := hf
  have ho₁ : s₁.input.ring.overwritten = 0 := by
    by_contra hne
    have h1 := hi.input.2 hne
    have h2 := h.inv.input.1.qle
    rw [he] at h2
    simp at h2
    omega
  exact
    { inv := hi
      port := by rw [hs]; exact h.port
      delims := hd
      output := by simp [h.output]
      input := by
        obtain ⟨ends, h1, h2, h3, h4⟩ := h.input
        have hb : Lines.bytes (ends ++ [(line, d)]) ++ (rest ++ inq) = Lines.bytes ends ++ (q ++ inq) := by
          simp [Lines.bytes, he]
        refine ⟨ends ++ [(line, d)], by simp [h1], ?_, ?_, ?_⟩
        · intro e hm
          rcases List.mem_append.mp hm with hm | hm
          · exact h2 e hm
          · simp at hm; simpa [hm] using hd'
        · rw [hb]; exact h3
        · rw [hb]; exact h4
      disciplined := fun hdisc => by
        obtain ⟨x, tl, h1, h2, h3⟩ := h.disciplined hdisc
        refine ⟨[], tl ++ [x ++ line], by simp [Lines.NoLine], ?_, ?_⟩
        · intro s ls t hs
          have := h2 s ((x ++ line) :: ls) t (.line (rest := rest ++ inq ++ s) ⟨d, hd', by simp [he], by
            intro c hc
            rcases List.mem_append.mp hc with hc | hc
            · exact h1 c hc
            · exact hln c hc⟩ (by simpa using hs))
          simpa using this
        · exact List.rel_append h3 (.cons (List.suffix_append _ _) .nil)
      ready := fun _ _ => .inl ho₁ }

theorem nextLine_first {σ : Type} {n m : Nat} {s : BufStream σ} {q p line rest : List Byte} (h : Inv n m s q p) (hf : Lines.First s.input.delims q line rest) :
    nextLine s = .ok line := by
  have hlen : line.length + 1 ≤ n := by
    have := h.input.1.qle
    obtain ⟨d, -, he, -⟩ := hf
    rw [he] at this
    simp at this
    omega
  have hb : s.input.ring.buf.length = n := h.input.1.len
  obtain ⟨l₁, e₁, -, -, -⟩ := LineBuf.getNextLine_first' h.input.1 hf (.inl rfl) (List.replicate (n + 1) 0) (n + 1) (by omega) (by simp)
  have ht : (line ++ [0] ++ (List.replicate (n + 1) 0).drop (line.length + 1)).take line.length = line := by
    rw [List.append_assoc, List.take_left']; rfl
  simp only [nextLine, hb, getNextLine, e₁, res_bind_ok, res_pure, ht]

theorem answer_ok {σ : Type} {n m : Nat} {s : BufStream σ} {q p line rest : List Byte} (h : Inv n m s q p) (hf : Lines.First s.input.delims q line rest) (b : Build)
    (g : Log) (v : LineBuf.View) (reply : List Byte) : ∃ s' w, answer b s g ⟨true, some v, 0, false⟩ reply =
      .ok ({ g with lines := g.lines ++ [line], written := g.written ++ w }, s') ∧ Inv n m s' rest (p ++ w) ∧ s'.stream = s.stream ∧ s'.input.delims = s.input.delims ∧
      (w = if m - p.length > reply.length then reply else []) := by
  have hfree : s.output.ring.freeSpace = m - p.length := h.output.free
  by_cases hr : m - p.length > reply.length
  · obtain ⟨s₁, e₁, i₁, hin, hst, -⟩ := Transaction.reply_spec b [.str reply] ⟨true, some v, 0, false⟩ h rfl rfl (.inr (.inl (by simpa [Transaction.Piece.bytes] using hr)))
    have e₁' : Transaction.outgoing b ⟨true, some v, 0, false⟩ s reply = .ok (reply.length, ⟨true, some v, reply.length, false⟩, s₁) := by
      simp only [Transaction.reply] at e₁
      cases ho : Transaction.outgoing b ⟨true, some v, 0, false⟩ s reply with
      | error f => rw [ho] at e₁; cases e₁
      | ok x =>
        obtain ⟨k, t, s'⟩ := x
        rw [ho] at e₁
        simp [Transaction.Piece.bytes, Nat.min_eq_left (Nat.le_of_lt hr)] at e₁
        obtain ⟨rfl, rfl, rfl⟩ := e₁
        rfl
    obtain ⟨s₂, e₂, i₂, -, hst₂, hd₂⟩ := Transaction.commit_first b ⟨true, some v, reply.length, false⟩ i₁ rfl rfl (line := line) (rest := rest) (by rw [hin]; exact hf)
    have hw : (Transaction.Piece.bytes [.str reply]).take (m - p.length) = reply := by
      simpa [Transaction.Piece.bytes] using List.take_of_length_le (Nat.le_of_lt hr)
    rw [hw] at i₂
    refine ⟨s₂, reply, ?_, i₂, by rw [hst₂, hst], by rw [hd₂, hin], by simp [hr]⟩
    simp [answer, nextLine_first h hf, Transaction.spaceLeft, Transaction.deref, hfree, hr, e₁', e₂, Transaction.destroy]
  · obtain ⟨s₂, e₂, i₂, -, hst₂, hd₂⟩ := Transaction.commit_first b ⟨true, some v, 0, false⟩ h rfl rfl hf
    refine ⟨s₂, [], ?_, by simpa using i₂, hst₂, hd₂, by simp [hr]⟩
    simp [answer, nextLine_first h hf, Transaction.spaceLeft, Transaction.deref, hfree, hr, e₂, Transaction.destroy]

theorem run_ok {σ : Type} {P : Port σ} {R : σ → List Byte → List Byte → Nat → Prop} {a : Nat} (hP : P.Lossless R a) (D : List Byte) (n m fuel : Nat) (hfa : a < fuel)
    (hfm : m < fuel) (disc : Prop) : ∀ (ops : List Op) (ok : Bool) {s : BufStream σ} {g : Log} {q p inq outq : List Byte},
    Ok R D n m disc ok s g q p inq outq →
    (∀ dst mx, Op.poll dst mx ∈ ops → n < mx ∧ mx ≤ dst.length) →
    (disc → PollBetweenPulls ok ops) →
    ∃ s' g' q' p' inq' outq' ok', run P fuel s g ops = .ok (g', s') ∧
      Ok R D n m disc ok' s' g' q' p' inq' outq'
  | [], ok, s, g, q, p, inq, outq, h, _, _ => ⟨s, g, q, p, inq, outq, ok, rfl, h⟩
  | .inject bytes :: ops, ok, s, g, q, p, inq, outq, h, hp, hd => by
    obtain ⟨room, hR⟩ := h.port
    obtain ⟨k, m', e, hk, hm'⟩ := hP.inject bytes hR
    obtain ⟨s', g', q', p', inq', outq', ok', e', h'⟩ := run_ok hP D n m fuel hfa hfm disc ops ok
      (s := { s with stream := m' }) (g := { g with sent := g.sent ++ bytes.take k })
      (q := q) (p := p) (inq := inq ++ bytes.take k) (outq := outq)
      { inv := ⟨h.inv.input, h.inv.output⟩
        port := ⟨_, hm'⟩
        delims := h.delims
        output := h.output
        input := by
          obtain ⟨ends, h1, h2, h3, h4⟩ := h.input
          refine ⟨ends, h1, h2, ?_, ?_⟩
          · have := h3.append (List.Sublist.refl (bytes.take k))
            simpa using this
          · simp only [List.length_append] at h4 ⊢; omega
        disciplined := fun hdisc => by
          obtain ⟨x, tl, h1, h2, h3⟩ := h.disciplined hdisc
          refine ⟨x, tl, h1, ?_, h3⟩
          intro s ls t hs
          have := h2 (bytes.take k ++ s) ls t (by simpa using hs)
          simpa using this
        ready := h.ready }
      (fun dst mx hm => hp dst mx (by simp [hm])) (fun hdisc => hd hdisc)
    refine ⟨s', g', q', p', inq', outq', ok', ?_, h'⟩
    simpa only [run, step, e, res_bind_ok, res_pure] using e'
  | .extract k :: ops, ok, s, g, q, p, inq, outq, h, hp, hd => by
    obtain ⟨room, hR⟩ := h.port
    obtain ⟨gone, rest, m', room', e, he, hm'⟩ := hP.extract k hR
    obtain ⟨s', g', q', p', inq', outq', ok', e', h'⟩ := run_ok hP D n m fuel hfa hfm disc ops ok
      (s := { s with stream := m' }) (g := { g with received := g.received ++ gone })
      (q := q) (p := p) (inq := inq) (outq := rest)
      { inv := ⟨h.inv.input, h.inv.output⟩
        port := ⟨_, hm'⟩
        delims := h.delims
        output := by simp [h.output, he]
        input := h.input
        disciplined := h.disciplined
        ready := h.ready }
      (fun dst mx hm => hp dst mx (by simp [hm])) (fun hdisc => hd hdisc)
    refine ⟨s', g', q', p', inq', outq', ok', ?_, h'⟩
    simpa only [run, step, e, res_bind_ok, res_pure] using e'
  | .pull :: ops, ok, s, g, q, p, inq, outq, h, hp, hd => by
    obtain ⟨room, hR₀⟩ := h.port
    have hal : inq.length < fuel := by have := hP.bound hR₀; omega
    obtain ⟨k, s₁, e, hk, hrep, hout, hdel, hR, -, hsafe⟩ :=
      pullLoop_spec hP.stream fuel 0 0 h.inv.input.1 hR₀ hal
    have hsplit : (q ++ inq.take k).take (q.length + k - n) ++ Queue.newest n (q ++ inq.take k) = q ++ inq.take k := by
      have := newest_split (n := n) (q ++ inq.take k)
      rwa [show (q ++ inq.take k).length = q.length + k by simp; omega] at this
    have hsplit' : (q ++ inq.take k).take (q.length + k - n) ++ (Queue.newest n (q ++ inq.take k) ++ inq.drop k) =
        q ++ inq := by
      rw [← List.append_assoc, hsplit, List.append_assoc, List.take_append_drop]
    have hlen := congrArg List.length hsplit'
    rw [h.delims] at hsafe hdel
    have hov : s₁.input.ring.overwritten ≠ 0 → (Queue.newest n (q ++ inq.take k)).length = n := by
      -- from the invariant of the loop
      obtain ⟨q₁, hi⟩ := pullLoop_inv fuel 0 0 h.inv e
      have : q₁ = Queue.newest n (q ++ inq.take k) := hi.input.1.holds.unique hrep.holds
      rw [← this]
      exact hi.input.2
    obtain ⟨s', g', q', p', inq', outq', ok', e', h'⟩ := run_ok hP D n m fuel hfa hfm disc ops false
      (s := s₁) (g := { g with lost := g.lost + (q.length + (0 + k) - (Queue.newest n (q ++ inq.take k)).length) })
      (q := Queue.newest n (q ++ inq.take k)) (p := p) (inq := inq.drop k) (outq := outq)
      { inv := ⟨⟨hrep, hov⟩, by rw [hout]; exact h.inv.output⟩
        port := ⟨_, hR⟩
        delims := hdel
        output := h.output
        input := by
          obtain ⟨ends, h1, h2, h3, h4⟩ := h.input
          refine ⟨ends, h1, h2, ?_, ?_⟩
          · refine List.Sublist.trans ?_ h3
            rw [← hsplit']
            exact (List.Sublist.refl _).append (List.sublist_append_right _ _)
          · simp only [List.length_append] at h4 hlen ⊢
            simp only [List.length_drop] at hlen ⊢
            have hq := hrep.qle
            have hle : (Queue.newest n (q ++ inq.take k)).length ≤ q.length + k := by
              simp [Queue.newest]; omega
            omega
        disciplined := fun hdisc => by
          obtain ⟨x, tl, h1, h2, h3⟩ := h.disciplined hdisc
          refine ⟨x ++ (q ++ inq.take k).take (q.length + k - n), tl, ?_, ?_, h3⟩
          · intro c hc
            rcases List.mem_append.mp hc with hc | hc
            · exact h1 c hc
            · have hr := h.ready hdisc (hd hdisc).1
              exact (hsafe (by
                rcases hr with hr | hr
                · exact .inl hr
                · exact .inr (.inl hr)) h.inv.input.2).1 c hc
          · intro s ls t hs
            rw [List.append_assoc x, hsplit'] at hs
            exact h2 s ls t hs
        ready := by intro _ h0; cases h0 }
      (fun dst mx hm => hp dst mx (by simp [hm])) (fun hdisc => (hd hdisc).2)
    refine ⟨s', g', q', p', inq', outq', ok', ?_, h'⟩
    have hu := h.inv.input.1.used
    have hu₁ := hrep.used
    simpa only [run, step, pullInData, e, res_bind_ok, res_pure, hu, hu₁] using e'
  | .push :: ops, ok, s, g, q, p, inq, outq, h, hp, hd => by
    obtain ⟨room, hR₀⟩ := h.port
    have hpl : p.length < fuel := by have := h.inv.output.qle; omega
    obtain ⟨s₁, e, hrep, hin, hdel, hR⟩ :=
      pushLoop_spec hP.stream fuel (s := s) 0 h.inv.output hR₀ (by omega)
    obtain ⟨s', g', q', p', inq', outq', ok', e', h'⟩ := run_ok hP D n m fuel hfa hfm disc ops ok
      (s := s₁) (g := g) (q := q) (p := p.drop room) (inq := inq)
      (outq := outq ++ p.take room)
      { inv := ⟨by rw [hin]; exact h.inv.input, hrep⟩
        port := ⟨_, hR⟩
        delims := by rw [hin]; exact h.delims
        output := by
          have := h.output
          simpa using this
        input := h.input
        disciplined := h.disciplined
        ready := by rw [hin]; exact h.ready }
      (fun dst mx hm => hp dst mx (by simp [hm])) (fun hdisc => hd hdisc)
    refine ⟨s', g', q', p', inq', outq', ok', ?_, h'⟩
    simpa only [run, step, pushOutData, e, res_bind_ok, res_pure] using e'
  | .write bytes :: ops, ok, s, g, q, p, inq, outq, h, hp, hd => by
    obtain ⟨r', e, hr', -⟩ := Ring.Rep.pushMany_false bytes h.inv.output
    have ht : bytes.take (min bytes.length (m - p.length)) = bytes.take (m - p.length) := by
      rw [List.take_eq_take_iff]; omega
    obtain ⟨s', g', q', p', inq', outq', ok', e', h'⟩ := run_ok hP D n m fuel hfa hfm disc ops ok
      (s := { s with output := { s.output with ring := r' } })
      (g := { g with written := g.written ++ bytes.take (m - p.length) })
      (q := q) (p := p ++ bytes.take (m - p.length)) (inq := inq) (outq := outq)
      { inv := ⟨h.inv.input, hr'⟩
        port := h.port
        delims := h.delims
        output := by simp [h.output]
        input := h.input
        disciplined := h.disciplined
        ready := h.ready }
      (fun dst mx hm => hp dst mx (by simp [hm])) (fun hdisc => hd hdisc)
    refine ⟨s', g', q', p', inq', outq', ok', ?_, h'⟩
    simpa only [run, step, bufferedWriteMany, e, res_bind_ok, res_pure, ht] using e'
  | .poll dst mx :: ops, ok, s, g, q, p, inq, outq, h, hp, hd => by
    obtain ⟨hm, hdst⟩ := hp dst mx (by simp)
    have hD := h.delims
    rcases Lines.first_or_none s.input.delims q with hno | ⟨line, rest, hf⟩
    · obtain ⟨s', g', q', p', inq', outq', ok', e', h'⟩ := run_ok hP D n m fuel hfa hfm disc ops true
        (s := s) (g := g) (q := q) (p := p) (inq := inq) (outq := outq)
        { h with ready := fun _ _ => .inr (by rwa [hD] at hno) }
        (fun dst mx hm => hp dst mx (by simp [hm])) (fun hdisc => hd hdisc)
      refine ⟨s', g', q', p', inq', outq', ok', ?_, h'⟩
      simpa [run, step, LineBuf.hasLine, LineBuf.length_none h.inv.input.1 hno] using e'
    · have hlen : line.length + 1 ≤ n := by
        have := h.inv.input.1.qle
        obtain ⟨d, -, he, -⟩ := hf
        rw [he] at this
        simp at this
        omega
      obtain ⟨l₁, e₁, h₁, hd₁, ho₁⟩ := LineBuf.getNextLine_first' h.inv.input.1 hf (.inl rfl) dst mx (by omega) hdst
      have ht : (line ++ [0] ++ dst.drop (line.length + 1)).take line.length = line := by
        rw [List.append_assoc, List.take_left']; rfl
      have hl := LineBuf.length_first h.inv.input.1 hf
      rw [hD] at hf
      have h' := h.consume (w := []) (s₁ := { s with input := l₁ }) hf ⟨⟨h₁, by simp [ho₁]⟩, by simpa using h.inv.output⟩ rfl (by simpa [hD] using hd₁)
      simp only [List.append_nil] at h'
      obtain ⟨s', g', q', p', inq', outq', ok', e', h'⟩ := run_ok hP D n m fuel hfa hfm disc ops true h'
        (fun dst mx hm => hp dst mx (by simp [hm])) (fun hdisc => hd hdisc)
      refine ⟨s', g', q', p', inq', outq', ok', ?_, h'⟩
      simp only [run, step, LineBuf.hasLine, hl, getNextLine, e₁, res_bind_ok, res_pure, ht]
      simpa using e'
  | .answer b reply :: ops, ok, s, g, q, p, inq, outq, h, hp, hd => by
    have hD := h.delims
    rcases Lines.first_or_none s.input.delims q with hno | ⟨line, rest, hf⟩
    · obtain ⟨s', g', q', p', inq', outq', ok', e', h'⟩ := run_ok hP D n m fuel hfa hfm disc ops true
        (s := s) (g := g) (q := q) (p := p) (inq := inq) (outq := outq)
        { h with ready := fun _ _ => .inr (by rwa [hD] at hno) }
        (fun dst mx hm => hp dst mx (by simp [hm])) (fun hdisc => hd hdisc)
      refine ⟨s', g', q', p', inq', outq', ok', ?_, h'⟩
      simpa [run, step, Transaction.new_none h.inv hno b] using e'
    · obtain ⟨v, en, -, -⟩ := Transaction.new_some h.inv hf b
      obtain ⟨s₁, w, e₁, i₁, hs₁, hd₁, -⟩ := answer_ok h.inv hf b g v reply
      rw [hD] at hf
      obtain ⟨s', g', q', p', inq', outq', ok', e', h'⟩ := run_ok hP D n m fuel hfa hfm disc ops true
        (h.consume hf i₁ hs₁ (by rw [hd₁, hD])) (fun dst mx hm => hp dst mx (by simp [hm])) (fun hdisc => hd hdisc)
      refine ⟨s', g', q', p', inq', outq', ok', ?_, h'⟩
      simpa only [run, step, en, e₁, res_bind_ok] using e'

/-- A fresh buffered stream on a port. -/
theorem fresh_ok {σ : Type} {R : σ → List Byte → List Byte → Nat → Prop} (bld : Build) (n m : Nat) (hn : 0 < n) (hm : 0 < m) (D : List Byte) (disc : Prop)
    {st : σ} {room : Nat} (hR : R st [] [] room) :
    ∃ s, BufStream.create bld st n m D = .ok s ∧ Ok R D n m disc true s ⟨[], [], [], [], 0⟩ [] [] [] [] := by
  obtain ⟨s, es, hi, hst, hd, -, ho⟩ := create_inv hn hm bld st D
  refine ⟨s, es, hi, ⟨room, by rw [hst]; exact hR⟩, hd, rfl, ⟨[], rfl, by simp, by simp [Lines.bytes],
    by simp [Lines.bytes]⟩, fun _ => ⟨[], [], by simp [Lines.NoLine], by simp, .nil⟩, fun _ _ => .inl ho⟩

theorem create_ok (bld : Build) (a b n m : Nat) (ha : 0 < a) (hb : 0 < b) (hn : 0 < n) (hm : 0 < m)
    (D : List Byte) (disc : Prop) :
    ∃ s, create bld a b n m D = .ok s ∧ Ok (State a b) D n m disc true s ⟨[], [], [], [], 0⟩ [] [] [] [] := by
  obtain ⟨mk, e, hmk⟩ := create_state ha hb bld
  obtain ⟨s, es, h⟩ := fresh_ok bld n m hn hm D disc hmk
  exact ⟨s, by simp [create, e, es], h⟩

end Device

/-- The mock stream as a port. -/
theorem Mock.port_lossless (a b : Nat) : Mock.port.Lossless (Mock.State a b) a where
  stream := Mock.lossless a b
  bound := fun h => h.1.qle
  inject := fun {s inq outq room} bytes h => by
    obtain ⟨m', e, hm'⟩ := h.inject bytes
    have ht : bytes.take (min bytes.length (a - inq.length)) = bytes.take (a - inq.length) := by
      rw [List.take_eq_take_iff]; omega
    exact ⟨_, m', e, by omega, by rw [ht]; exact hm'⟩
  extract := fun {s inq outq room} k h => by
    obtain ⟨m', e, hm'⟩ := h.extract
    exact ⟨outq, [], m', b, e, by simp, hm'⟩

namespace Serial

/-- The state of a serial port. -/
def State (a b : Nat) (s : Serial) (inq outq : List Byte) (room : Nat) : Prop :=
  s.rx = inq ∧ s.wire ++ s.tx = outq ∧ s.rxSize = a ∧ s.txSize = b ∧ s.rx.length ≤ a ∧ s.tx.length + room = b

theorem lossless (a b : Nat) : port.Lossless (State a b) a where
  stream :=
    { available := by
        rintro s inq outq room ⟨rfl, h⟩
        simp [port, iface]
      read := by
        rintro s c inq outq room ⟨h1, h2, h3, h4, h5, h6⟩
        refine ⟨{ s with rx := inq }, ?_, rfl, h2, h3, h4, by rw [h1] at h5; simp at h5; simp; omega, h6⟩
        have hc : ((c.toNat : Int) % 256).toNat = c.toNat := by have := c.toNat_lt; omega
        simp [port, iface, read, h1, UInt8.ofInt, hc]
      availableForWrite := by
        rintro s inq outq room ⟨h1, h2, h3, h4, h5, h6⟩
        simp [port, iface]
        omega
      write := by
        rintro s inq outq room c ⟨h1, h2, h3, h4, h5, h6⟩
        have hlt : s.tx.length < s.txSize := by omega
        refine ⟨{ s with tx := s.tx ++ [c] }, ?_, h1, by simp [← h2], h3, h4, h5, by simp; omega⟩
        simp [port, iface, write, hlt] }
  bound := by rintro s inq outq room ⟨rfl, -, -, -, h, -⟩; exact h
  inject := by
    rintro s inq outq room bytes ⟨h1, h2, h3, h4, h5, h6⟩
    have ht : bytes.take (min bytes.length (s.rxSize - s.rx.length)) = bytes.take (s.rxSize - s.rx.length) := by
      rw [List.take_eq_take_iff]; omega
    refine ⟨_, _, rfl, by omega, ?_, h2, h3, h4, ?_, h6⟩
    · rw [ht, h1]
    · simp; omega
  extract := by
    rintro s inq outq room k ⟨h1, h2, h3, h4, h5, h6⟩
    refine ⟨_, s.tx.drop k, _, b - (s.tx.drop k).length, rfl, by simp [← h2], h1, rfl, h3, h4, h5, ?_⟩
    simp; omega

end Serial

theorem mockUart_lossless {σ : Type} {S : Stream σ} {R : σ → List Byte → List Byte → Nat → Prop} (h : S.Lossless R) : (mockUart S).Lossless R :=
  ⟨h.available, h.read, h.availableForWrite, h.write⟩

end Spine

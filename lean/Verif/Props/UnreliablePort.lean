import Verif.Model.UnreliablePort
import Verif.Spec.Watch
import Verif.Proofs.Device
/-!
# Property C166: a buffered stream on a port that does not keep its promises
-/

namespace Spine

open BufStream

/-! ## The loops -/

theorem watch_pushLoop {σ : Type} {S : Stream σ} {m : Nat} : ∀ (fuel : Nat) {s : BufStream (Watched σ)} {p : List Byte} (k₀ : Nat), Ring.Rep m s.output.ring p →
    ∀ {x}, s.pushLoop S.watch fuel k₀ = .ok x → ∃ k, x.1 = k₀ + k ∧ k ≤ p.length ∧ x.2.stream.accepted = s.stream.accepted ++ p.take k ∧
      x.2.stream.delivered = s.stream.delivered ∧ x.2.input = s.input ∧ x.2.output.delims = s.output.delims ∧
      ((Ring.Rep m x.2.output.ring (p.drop k) ∧ (S.availableForWrite x.2.stream.port = 0 ∨ k = p.length)) ∨
        (Ring.Rep m x.2.output.ring (p.drop (k + 1)) ∧ ∃ st c, p[k]? = some c ∧ S.availableForWrite st ≠ 0 ∧ S.write st c = .ok (false, x.2.stream.port)))
  | 0, s, p, k₀, h, x, e => by cases e
  | fuel + 1, s, p, k₀, h, x, e => by
    unfold pushLoop at e
    split at e
    · rename_i h0
      cases e
      exact ⟨0, rfl, Nat.zero_le _, by simp, rfl, rfl, rfl, .inl ⟨by simpa using h, .inl h0⟩⟩
    · rename_i h0
      cases p with
      | nil =>
        simp only [h.pop_none, res_bind_ok] at e
        cases e
        exact ⟨0, rfl, Nat.zero_le _, by simp, rfl, rfl, rfl, .inl ⟨by simpa using h, .inr rfl⟩⟩
      | cons c p =>
        obtain ⟨r', ep, h', -⟩ := h.pop_some
        simp only [ep, res_bind_ok, Stream.watch] at e
        cases hw : S.write s.stream.port c with
        | error f => simp [hw] at e
        | ok y =>
          obtain ⟨d, st⟩ := y
          simp only [hw, res_bind_ok, res_pure] at e
          cases d with
          | false =>
            cases e
            exact ⟨0, rfl, Nat.zero_le _, by simp, rfl, rfl, rfl, .inr ⟨by simpa using h', s.stream.port, c, rfl, h0, hw⟩⟩
          | true =>
            obtain ⟨k, h1, h2, h3, h4, h5, h6, h7⟩ := watch_pushLoop fuel
              (s := ⟨s.input, ⟨r', s.output.delims⟩, ⟨st, s.stream.delivered, s.stream.accepted ++ [c]⟩⟩) (k₀ + 1) h' e
            refine ⟨k + 1, by omega, by simpa using h2, by simp [h3], h4, h5, h6, ?_⟩
            rcases h7 with ⟨h7, h8⟩ | ⟨h7, st', c', h8⟩
            · exact .inl ⟨by simpa using h7, by simpa using h8⟩
            · exact .inr ⟨by simpa using h7, st', c', by simpa using h8⟩

theorem watch_pullLoop {σ : Type} {S : Stream σ} {n m : Nat} : ∀ (fuel : Nat) {s : BufStream (Watched σ)} {q p : List Byte} (c : Byte) (k₀ : Nat), Inv n m s q p →
    ∀ {x}, s.pullLoop S.watch fuel c k₀ = .ok x → ∃ bytes, x.1 = k₀ + bytes.length ∧ x.2.stream.delivered = s.stream.delivered ++ bytes ∧
      x.2.stream.accepted = s.stream.accepted ∧ x.2.input.delims = s.input.delims ∧ Inv n m x.2 (Queue.newest n (q ++ bytes)) p
  | 0, s, q, p, c, k, h, x, e => by cases e
  | fuel + 1, s, q, p, c, k, h, x, e => by
    have hq : Queue.newest n (q ++ []) = q := by rw [List.append_nil]; exact Queue.newest_of_le h.input.1.qle
    unfold pullLoop at e
    split at e
    · cases e; exact ⟨[], rfl, by simp, rfl, rfl, by rw [hq]; exact h⟩
    · obtain ⟨b, eb⟩ := pullStop_ok h.input.1 c
      simp only [eb, res_bind_ok] at e
      cases b with
      | true => cases e; exact ⟨[], rfl, by simp, rfl, rfl, by rw [hq]; exact h⟩
      | false =>
        cases hr : S.read s.stream.port with
        | error f => simp [Stream.watch, hr] at e
        | ok y =>
          obtain ⟨v, st⟩ := y
          simp only [Stream.watch, hr, res_bind_ok, res_pure] at e
          cases v with
          | none => cases e; exact ⟨[], rfl, by simp, rfl, rfl, by rw [hq]; exact ⟨h.input, h.output⟩⟩
          | some v =>
            have hp : ∃ r', s.input.ring.push v true = .ok (true, r') ∧ Ring.Tight n r' (Queue.newest n (q ++ [v])) := by
              by_cases hq : q.length < n
              · obtain ⟨r', e, h', o⟩ := h.input.1.push_space v true hq
                rw [Queue.newest_of_le (by simp; omega)]
                exact ⟨r', e, h', by rw [o]; intro h0; have := h.input.2 h0; omega⟩
              · have hq : q.length = n := by have := h.input.1.qle; omega
                obtain ⟨r', e, h', o⟩ := h.input.1.push_rollover v hq
                have hn : Queue.newest n (q ++ [v]) = (q ++ [v]).drop 1 := by simp [Queue.newest, hq]
                have hpos := h.input.1.pos
                have ht : q.tail ++ [v] = (q ++ [v]).drop 1 := by
                  cases q with
                  | nil => simp at hq; omega
                  | cons a q => simp
                rw [hn, ← ht]
                refine ⟨r', e, ?_, ?_⟩
                · simpa using h'
                · intro _; simp [hq]; omega
            obtain ⟨r', ep, h'⟩ := hp
            simp only [ep, res_bind_ok] at e
            obtain ⟨bytes, h1, h2, h3, h4, h5⟩ := watch_pullLoop fuel (s := ⟨⟨r', s.input.delims⟩, s.output, ⟨st, s.stream.delivered ++ [v], s.stream.accepted⟩⟩) v (k + 1)
              ⟨h', h.output⟩ e
            refine ⟨v :: bytes, by simp only [List.length_cons]; omega, by simp [h2], h3, h4, ?_⟩
            have hnn : Queue.newest n (Queue.newest n (q ++ [v]) ++ bytes) = Queue.newest n (q ++ v :: bytes) := by
              simp only [Queue.newest]
              rw [show q ++ v :: bytes = (q ++ [v]) ++ bytes by simp]
              generalize q ++ [v] = a
              simp only [List.length_append, List.length_drop]
              by_cases ha : a.length ≤ n
              · simp [Nat.sub_eq_zero_of_le ha]
              · have hd : a.drop (a.length - n) ++ bytes = (a ++ bytes).drop (a.length - n) := by
                  rw [List.drop_append_of_le_length (by omega)]
                rw [hd, List.drop_drop]
                congr 1
                omega
            rw [hnn] at h5
            exact h5

/-! ## Histories -/

/-- What is true after a history; `r` bytes have been refused. -/
structure WOk {σ : Type} (D : List Byte) (n m : Nat) (s : BufStream (Watched σ)) (g : Device.Log) (q p : List Byte) (r : Nat) : Prop where
  inv : Inv n m s q p
  delims : s.input.delims = D
  output : (s.stream.accepted ++ p).Sublist g.written
  refused : g.written.length = s.stream.accepted.length + p.length + r
  input : ∃ ends : List (List Byte × Byte), ends.map Prod.fst = g.lines ∧ (∀ e ∈ ends, e.2 ∈ D) ∧ (Lines.bytes ends ++ q).Sublist s.stream.delivered ∧
    s.stream.delivered.length = (Lines.bytes ends ++ q).length + g.lost

theorem WOk.consume {σ : Type} {D : List Byte} {n m : Nat} {s s₁ : BufStream (Watched σ)} {g : Device.Log} {q p line rest w : List Byte} {r : Nat} (h : WOk D n m s g q p r)
    (hf : Lines.First D q line rest) (hi : Inv n m s₁ rest (p ++ w)) (hs : s₁.stream = s.stream) (hd : s₁.input.delims = D) :
    WOk D n m s₁ { g with lines := g.lines ++ [line], written := g.written ++ w } rest (p ++ w) r := by
  obtain ⟨d, hd', he, hln⟩ := hf
  exact
    { inv := hi
      delims := hd
      output := by rw [hs, ← List.append_assoc]; exact h.output.append (List.Sublist.refl w)
      refused := by rw [hs]; have := h.refused; simp only [List.length_append] at this ⊢; omega
      input := by
        obtain ⟨ends, h1, h2, h3, h4⟩ := h.input
        have hb : Lines.bytes (ends ++ [(line, d)]) ++ rest = Lines.bytes ends ++ q := by simp [Lines.bytes, he]
        refine ⟨ends ++ [(line, d)], by simp [h1], ?_, ?_, ?_⟩
        · intro e hm
          rcases List.mem_append.mp hm with hm | hm
          · exact h2 e hm
          · simp at hm; simpa [hm] using hd'
        · rw [hb, hs]; exact h3
        · rw [hb, hs]; exact h4 }

theorem watch_run {σ : Type} {P : Port σ} (D : List Byte) (n m fuel : Nat) : ∀ (ops : List Device.Op) {s s' : BufStream (Watched σ)} {g g' : Device.Log} {q p : List Byte} {r : Nat},
    WOk D n m s g q p r → (∀ dst mx, Device.Op.poll dst mx ∈ ops → n < mx ∧ mx ≤ dst.length) → Device.run P.watch fuel s g ops = .ok (g', s') →
    ∃ q' p' r', WOk D n m s' g' q' p' r' ∧ r ≤ r' ∧ r' ≤ r + Device.pushes ops
  | [], s, s', g, g', q, p, r, h, _, e => by
    simp [Device.run] at e
    obtain ⟨rfl, rfl⟩ := e
    exact ⟨q, p, r, h, Nat.le_refl _, Nat.le_add_right _ _⟩
  | .inject bytes :: ops, s, s', g, g', q, p, r, h, hp, e => by
    cases hx : P.inject s.stream.port bytes with
    | error f => simp [Device.run, Device.step, Port.watch, hx] at e
    | ok x =>
      have hx' : P.watch.inject s.stream bytes = .ok (x.1, ⟨x.2, s.stream.delivered, s.stream.accepted⟩) := by simp [Port.watch, hx]
      simp only [Device.run, Device.step, hx', res_bind_ok, res_pure] at e
      exact watch_run D n m fuel ops (s := { s with stream := ⟨x.2, s.stream.delivered, s.stream.accepted⟩ }) (g := { g with sent := g.sent ++ bytes.take x.1 }) (q := q) (p := p) (r := r)
        ⟨⟨h.inv.input, h.inv.output⟩, h.delims, h.output, h.refused, h.input⟩
        (fun dst mx hm => hp dst mx (by simp [hm])) e
  | .extract k :: ops, s, s', g, g', q, p, r, h, hp, e => by
    cases hx : P.extract s.stream.port k with
    | error f => simp [Device.run, Device.step, Port.watch, hx] at e
    | ok x =>
      have hx' : P.watch.extract s.stream k = .ok (x.1, ⟨x.2, s.stream.delivered, s.stream.accepted⟩) := by simp [Port.watch, hx]
      simp only [Device.run, Device.step, hx', res_bind_ok, res_pure] at e
      exact watch_run D n m fuel ops (s := { s with stream := ⟨x.2, s.stream.delivered, s.stream.accepted⟩ }) (g := { g with received := g.received ++ x.1 }) (q := q) (p := p) (r := r)
        ⟨⟨h.inv.input, h.inv.output⟩, h.delims, h.output, h.refused, h.input⟩
        (fun dst mx hm => hp dst mx (by simp [hm])) e
  | .pull :: ops, s, s', g, g', q, p, r, h, hp, e => by
    cases hx : s.pullInData P.watch.stream fuel with
    | error f => simp [Device.run, Device.step, hx] at e
    | ok x =>
      obtain ⟨bytes, h1, h2, h3, h4, h5⟩ := watch_pullLoop (S := P.stream) fuel 0 0 h.inv hx
      simp only [Device.run, Device.step, hx, res_bind_ok, res_pure] at e
      refine watch_run D n m fuel ops (q := Queue.newest n (q ++ bytes)) (p := p) (r := r) ⟨h5, by rw [h4]; exact h.delims, by rw [h3]; exact h.output,
        by rw [h3]; exact h.refused, ?_⟩ (fun dst mx hm => hp dst mx (by simp [hm])) e
      obtain ⟨ends, g1, g2, g3, g4⟩ := h.input
      have hsub : (Queue.newest n (q ++ bytes)).Sublist (q ++ bytes) := List.drop_sublist _ _
      have hle := hsub.length_le
      have hu := h.inv.input.1.used
      have hu₁ := h5.input.1.used
      refine ⟨ends, g1, g2, ?_, ?_⟩
      · rw [h2]
        refine List.Sublist.trans ((List.Sublist.refl (Lines.bytes ends)).append hsub) ?_
        rw [← List.append_assoc]
        exact g3.append (List.Sublist.refl _)
      · rw [h2, hu, hu₁, h1]
        simp only [List.length_append] at g4 hle ⊢
        omega
  | .push :: ops, s, s', g, g', q, p, r, h, hp, e => by
    cases hx : s.pushOutData P.watch.stream fuel with
    | error f => simp [Device.run, Device.step, hx] at e
    | ok x =>
      obtain ⟨k, h1, h2, h3, h4, h5, h6, h7⟩ := watch_pushLoop (S := P.stream) fuel 0 h.inv.output hx
      simp only [Device.run, Device.step, hx, res_bind_ok, res_pure] at e
      have hin : Ring.Tight n x.2.input.ring q := by rw [h5]; exact h.inv.input
      have hdel : x.2.input.delims = D := by rw [h5]; exact h.delims
      rcases h7 with ⟨h7, -⟩ | ⟨h7, st, c, hc, -⟩
      · obtain ⟨q', p', r', a1, a2, a3⟩ := watch_run D n m fuel ops (q := q) (p := p.drop k) (r := r) ⟨⟨hin, h7⟩, hdel, by
            rw [h3, List.append_assoc, List.take_append_drop]; exact h.output, by
            rw [h3]; have := h.refused; simp only [List.length_append, List.length_take, List.length_drop] at this ⊢; omega, by rw [h4]; exact h.input⟩
          (fun dst mx hm => hp dst mx (by simp [hm])) e
        exact ⟨q', p', r', a1, a2, by simp only [Device.pushes]; omega⟩
      · have hk : k < p.length := (List.getElem?_eq_some_iff.mp hc).1
        obtain ⟨q', p', r', a1, a2, a3⟩ := watch_run D n m fuel ops (q := q) (p := p.drop (k + 1)) (r := r + 1) ⟨⟨hin, h7⟩, hdel, by
            rw [h3, List.append_assoc]
            refine List.Sublist.trans ((List.Sublist.refl _).append ?_) h.output
            conv_rhs => rw [← List.take_append_drop k p]
            refine (List.Sublist.refl _).append ?_
            rw [← List.drop_drop]
            exact List.drop_sublist _ _, by
            rw [h3]; have := h.refused; simp only [List.length_append, List.length_take, List.length_drop] at this ⊢; omega, by rw [h4]; exact h.input⟩
          (fun dst mx hm => hp dst mx (by simp [hm])) e
        exact ⟨q', p', r', a1, by omega, by simp only [Device.pushes]; omega⟩
  | .write bytes :: ops, s, s', g, g', q, p, r, h, hp, e => by
    obtain ⟨r', ep, hr', -⟩ := Ring.Rep.pushMany_false bytes h.inv.output
    have ht : bytes.take (min bytes.length (m - p.length)) = bytes.take (m - p.length) := by
      rw [List.take_eq_take_iff]; omega
    simp only [Device.run, Device.step, bufferedWriteMany, ep, res_bind_ok, res_pure, ht] at e
    exact watch_run D n m fuel ops (s := { s with output := { s.output with ring := r' } }) (g := { g with written := g.written ++ bytes.take (m - p.length) }) (q := q)
      (p := p ++ bytes.take (m - p.length)) (r := r) ⟨⟨h.inv.input, hr'⟩, h.delims, by
        rw [← List.append_assoc]; exact h.output.append (List.Sublist.refl _), by
        have := h.refused; simp only [List.length_append] at this ⊢; omega, h.input⟩
      (fun dst mx hm => hp dst mx (by simp [hm])) e
  | .poll dst mx :: ops, s, s', g, g', q, p, r, h, hp, e => by
    obtain ⟨hm, hdst⟩ := hp dst mx (by simp)
    have hD := h.delims
    rcases Lines.first_or_none s.input.delims q with hno | ⟨line, rest, hf⟩
    · simp [Device.run, Device.step, LineBuf.hasLine, LineBuf.length_none h.inv.input.1 hno] at e
      exact watch_run D n m fuel ops h (fun dst mx hm => hp dst mx (by simp [hm])) e
    · have hlen : line.length + 1 ≤ n := by
        have := h.inv.input.1.qle
        obtain ⟨d, -, he, -⟩ := hf
        rw [he] at this
        simp at this
        omega
      obtain ⟨l₁, e₁, h₁, hd₁, ho₁⟩ := LineBuf.getNextLine_first' h.inv.input.1 hf (.inl rfl) dst mx (by omega) hdst
      have ht : (line ++ [0] ++ dst.drop (line.length + 1)).take line.length = line := by
        rw [List.append_assoc, List.take_left']; rfl
      have hl := LineBuf.length_first h.inv.input.1 hf
      rw [hD] at hf
      have h' := h.consume (w := []) (s₁ := { s with input := l₁ }) hf ⟨⟨h₁, by simp [ho₁]⟩, by simpa using h.inv.output⟩ rfl (by simpa [hD] using hd₁)
      simp only [List.append_nil] at h'
      simp only [Device.run, Device.step, LineBuf.hasLine, hl, getNextLine, e₁, res_bind_ok, res_pure, ht] at e
      exact watch_run D n m fuel ops h' (fun dst mx hm => hp dst mx (by simp [hm])) (by simpa using e)
  | .answer b reply :: ops, s, s', g, g', q, p, r, h, hp, e => by
    have hD := h.delims
    rcases Lines.first_or_none s.input.delims q with hno | ⟨line, rest, hf⟩
    · simp [Device.run, Device.step, Transaction.new_none h.inv hno b] at e
      exact watch_run D n m fuel ops h (fun dst mx hm => hp dst mx (by simp [hm])) e
    · obtain ⟨v, en, -, -⟩ := Transaction.new_some h.inv hf b
      obtain ⟨s₁, w, e₁, i₁, hs₁, hd₁, -⟩ := Device.answer_ok h.inv hf b g v reply
      rw [hD] at hf
      simp only [Device.run, Device.step, en, e₁, res_bind_ok] at e
      exact watch_run D n m fuel ops (h.consume hf i₁ hs₁ (by rw [hd₁, hD])) (fun dst mx hm => hp dst mx (by simp [hm])) e

/-! ## C166 -/

variable {σ : Type}

/-- **C166, the claim.** "A port that refuses bytes, or has none although it said so, only delays the data: what the application wrote is, in order, what the port accepted
and what is in the output buffer; what the port delivered is, in order, the lines used or answered and the input buffer, up to bytes overwritten there."

One call of `push_out_data()` on any port: the port accepts the first `k` bytes, `k` is returned, and the rest stays in the buffer; unless the port refuses a byte, which is
then lost. -/
theorem C166_push_partial {S : Stream σ} {n m : Nat} (hn : 0 < n) (hm : 0 < m) {s : BufStream (Watched σ)} (h : Reachable S.watch n m s) {q p : List Byte}
    (hq : s.input.Holds q) (hp : s.output.Holds p) {fuel k : Nat} {s' : BufStream (Watched σ)} (e : s.pushOutData S.watch fuel = .ok (k, s')) :
    k ≤ p.length ∧ s'.stream.accepted = s.stream.accepted ++ p.take k ∧ s'.stream.delivered = s.stream.delivered ∧ s'.input.Holds q ∧
      ((s'.output.Holds (p.drop k) ∧ (S.availableForWrite s'.stream.port = 0 ∨ k = p.length)) ∨
        (s'.output.Holds (p.drop (k + 1)) ∧ ∃ st c, p[k]? = some c ∧ S.availableForWrite st ≠ 0 ∧ S.write st c = .ok (false, s'.stream.port))) := by
  obtain ⟨q₀, p₀, h⟩ := h.inv hn hm
  obtain rfl : q₀ = q := h.input.1.holds.unique hq
  obtain rfl : p₀ = p := h.output.holds.unique hp
  obtain ⟨k', h1, h2, h3, h4, h5, h6, h7⟩ := watch_pushLoop (S := S) fuel 0 h.output e
  obtain rfl : k = k' := by simpa using h1
  refine ⟨h2, h3, h4, by rw [h5]; exact hq, ?_⟩
  rcases h7 with ⟨h7, h8⟩ | ⟨h7, h8⟩
  · exact .inl ⟨h7.holds, h8⟩
  · exact .inr ⟨h7.holds, h8⟩

/-- **C166.** It ends, whatever the port does. -/
theorem C166_push_ends {S : Stream σ} (hw : ∀ st c, ∃ x, S.write st c = .ok x) {n m : Nat} (hn : 0 < n) (hm : 0 < m) {s : BufStream σ} (h : Reachable S n m s) {fuel : Nat}
    (hf : m < fuel) : ∃ x, s.pushOutData S fuel = .ok x := by
  obtain ⟨q, p, h⟩ := h.inv hn hm
  have hl : p.length < fuel := by have := h.output.qle; omega
  have key : ∀ (fuel : Nat) {s : BufStream σ} {p : List Byte} (k : Nat), Ring.Rep m s.output.ring p → p.length < fuel → ∃ x, s.pushLoop S fuel k = .ok x := by
    intro fuel
    induction fuel with
    | zero => intro s p k h hl; omega
    | succ fuel ih =>
      intro s p k h hl
      unfold pushLoop
      split
      · exact ⟨_, rfl⟩
      · cases p with
        | nil => exact ⟨_, by simp only [h.pop_none, res_bind_ok]; rfl⟩
        | cons c p =>
          obtain ⟨r', ep, h', -⟩ := h.pop_some
          obtain ⟨⟨d, st⟩, ew⟩ := hw s.stream c
          cases d with
          | false => exact ⟨_, by simp only [ep, ew, res_bind_ok]; rfl⟩
          | true =>
            obtain ⟨x, ex⟩ := ih (s := ⟨s.input, ⟨r', s.output.delims⟩, st⟩) (k + 1) h' (by simpa using hl)
            exact ⟨x, by simp only [ep, ew, res_bind_ok, Bool.not_true, Bool.false_eq_true, if_false]; exact ex⟩
  exact key fuel 0 h.output hl

/-- **C166.** One call of `pull_in_data()` on any port loses no byte that the port delivered, up to bytes overwritten in the input buffer; a failed read has no effect. -/
theorem C166_pull {S : Stream σ} {n m : Nat} (hn : 0 < n) (hm : 0 < m) {s : BufStream (Watched σ)} (h : Reachable S.watch n m s) {q p : List Byte} (hq : s.input.Holds q)
    (hp : s.output.Holds p) {fuel k : Nat} {s' : BufStream (Watched σ)} (e : s.pullInData S.watch fuel = .ok (k, s')) :
    ∃ bytes : List Byte, bytes.length = k ∧ s'.stream.delivered = s.stream.delivered ++ bytes ∧ s'.stream.accepted = s.stream.accepted ∧
      s'.input.Holds (Queue.newest n (q ++ bytes)) ∧ s'.output.Holds p := by
  obtain ⟨q₀, p₀, h⟩ := h.inv hn hm
  obtain rfl : q₀ = q := h.input.1.holds.unique hq
  obtain rfl : p₀ = p := h.output.holds.unique hp
  obtain ⟨bytes, h1, h2, h3, h4, h5⟩ := watch_pullLoop (S := S) fuel 0 0 h e
  exact ⟨bytes, by simpa using h1.symm, h2, h3, h5.input.1.holds, h5.output.holds⟩

/-- **C166.** Any port, over any history of arriving and leaving bytes, pulls, pushes, polls, writes and answers, in debug and release builds: what the port accepted and what
is in the output buffer is a subsequence of what the application wrote, and at most one byte is missing for each call of `push_out_data()`; the lines used or answered and the
input buffer are a subsequence of what the port delivered, and the number of missing bytes is the number of bytes overwritten in the input buffer.

Missing: that no byte is lost in the output; `C166_refused_counterexample`. -/
theorem C166_history_partial {P : Port σ} {st : σ} (bld : Build) {n m : Nat} (hn : 0 < n) (hm : 0 < m) {D : List Byte} {fuel : Nat} {ops : List Device.Op}
    (hp : ∀ dst mx, Device.Op.poll dst mx ∈ ops → n < mx ∧ mx ≤ dst.length) {s₀ s : BufStream (Watched σ)} {g : Device.Log}
    (e₀ : BufStream.create bld ⟨st, [], []⟩ n m D = .ok s₀) (e : Device.run P.watch fuel s₀ ⟨[], [], [], [], 0⟩ ops = .ok (g, s)) :
    ∃ q p, s.input.Holds q ∧ s.output.Holds p ∧ (s.stream.accepted ++ p).Sublist g.written ∧
      g.written.length ≤ s.stream.accepted.length + p.length + Device.pushes ops ∧
      ∃ ends : List (List Byte × Byte), ends.map Prod.fst = g.lines ∧ (∀ e ∈ ends, e.2 ∈ D) ∧
        ((ends.flatMap fun e => e.1 ++ [e.2]) ++ q).Sublist s.stream.delivered ∧
        s.stream.delivered.length = ((ends.flatMap fun e => e.1 ++ [e.2]) ++ q).length + g.lost := by
  obtain ⟨s₁, es, hi, hst, hd, -, ho⟩ := create_inv hn hm bld (⟨st, [], []⟩ : Watched σ) D
  obtain rfl : s₁ = s₀ := by rw [es] at e₀; simpa using e₀
  obtain ⟨q, p, r, h, -, hr⟩ := watch_run D n m fuel ops (q := []) (p := []) (r := 0) ⟨hi, hd, by simp [hst], by simp [hst], ⟨[], rfl, by simp, by simp [Lines.bytes],
    by simp [hst, Lines.bytes]⟩⟩ hp e
  have := h.refused
  exact ⟨q, p, h.inv.input.1.holds, h.inv.output.holds, h.output, by omega, h.input⟩

/-! ## A port with a mind of its own -/

/-- A port for examples: it always says that bytes wait and that there is room; whether a call succeeds is decided by a list. -/
structure Moody where
  moods : List Bool
  rx : List Byte

/-- Its functions. -/
def Moody.port : Port Moody where
  stream :=
    { available := fun _ => 1
      availableForWrite := fun _ => 1
      read := fun s => match s.moods, s.rx with
        | true :: moods, c :: rx => .ok (some c, ⟨moods, rx⟩)
        | _, _ => .ok (none, { s with moods := s.moods.drop 1 })
      write := fun s _ => .ok (s.moods.headD false, { s with moods := s.moods.drop 1 }) }
  inject := fun s bytes => .ok (bytes.length, { s with rx := s.rx ++ bytes })
  extract := fun s _ => .ok ([], s)

/-- **C166, counterexample.** The application writes three bytes; the port accepts the first, refuses the second and accepts the rest of them later: the second byte is
gone, with one call of `push_out_data()` having returned 1 and the next one 1. -/
theorem C166_refused_counterexample : ∃ s₀ s₁ s₂ s₃ : BufStream (Watched Moody), BufStream.create .debug ⟨⟨[true, false, true], []⟩, [], []⟩ 4 4 [10] = .ok s₀ ∧
    s₀.bufferedWriteMany [97, 98, 99] false = .ok (3, s₁) ∧ s₁.pushOutData Moody.port.stream.watch 5 = .ok (1, s₂) ∧ s₂.pushOutData Moody.port.stream.watch 5 = .ok (1, s₃) ∧
    s₃.stream.accepted = [97, 99] ∧ s₃.output.Holds [] :=
  ⟨_, _, _, _, rfl, rfl, rfl, rfl, rfl, Ring.Rep.holds (n := 4) (by
    refine ⟨rfl, by decide, by decide, by decide, rfl, ?_, ?_⟩ <;> simp)⟩

/-- The hypotheses of the theorems hold, and something happens: reads fail between the bytes of a line, its answer is sent with one byte missing. -/
example : ∃ s₀ : BufStream (Watched Moody), BufStream.create .debug ⟨⟨[true, false, true, false, true, true, false, true], []⟩, [], []⟩ 8 8 [10] = .ok s₀ ∧
    (Device.run Moody.port.watch 9 s₀ ⟨[], [], [], [], 0⟩ [.inject [97, 10, 98], .pull, .pull, .answer .debug [111, 107, 33, 10], .push, .push]).map
      (fun x => (x.1.lines, x.1.written, x.2.stream.delivered, x.2.stream.accepted)) = .ok ([[97]], [111, 107, 33, 10], [97, 10], [111, 107, 10]) := ⟨_, rfl, rfl⟩

/-! ## Functions left to the base class -/

/-- **C166.** A stream that does not override `write`: in a debug build, `push_out_data()` fails as soon as there is something to send and room is reported; in a release
build every call returns 0 and destroys one byte. -/
theorem C166_read_only (S : Stream σ) {n m : Nat} (hn : 0 < n) (hm : 0 < m) (b : Build) {s : BufStream σ} (h : Reachable (S.readOnly b) n m s) {c : Byte} {p : List Byte}
    (hp : s.output.Holds (c :: p)) (hr : S.availableForWrite s.stream ≠ 0) (fuel : Nat) :
    (b = .debug → s.pushOutData (S.readOnly b) (fuel + 1) = .error .assertFailed) ∧
    (b = .release → ∃ s', s.pushOutData (S.readOnly b) (fuel + 1) = .ok (0, s') ∧ s'.output.Holds p ∧ s'.stream = s.stream) := by
  obtain ⟨q, p₀, h⟩ := h.inv hn hm
  obtain rfl : p₀ = c :: p := h.output.holds.unique hp
  obtain ⟨r', ep, h', -⟩ := h.output.pop_some
  have hne : ¬ (S.readOnly b).availableForWrite s.stream = 0 := hr
  constructor
  · rintro rfl
    simp only [pushOutData, pushLoop, if_neg hne, ep, res_bind_ok]
    rfl
  · rintro rfl
    refine ⟨⟨s.input, ⟨r', s.output.delims⟩, s.stream⟩, ?_, h'.holds, rfl⟩
    simp only [pushOutData, pushLoop, if_neg hne, ep, res_bind_ok]
    rfl

/-- **C166.** A stream that does not override `read`: in a debug build, `pull_in_data()` fails as soon as bytes wait and the input buffer has room; in a release build it
has no effect. -/
theorem C166_write_only (S : Stream σ) {n m : Nat} (hn : 0 < n) (hm : 0 < m) (b : Build) {s : BufStream σ} (h : Reachable (S.writeOnly b) n m s) {q : List Byte}
    (hq : s.input.Holds q) (hl : q.length < n) (hr : S.available s.stream ≠ 0) (fuel : Nat) :
    (b = .debug → s.pullInData (S.writeOnly b) (fuel + 1) = .error .assertFailed) ∧ (b = .release → s.pullInData (S.writeOnly b) (fuel + 1) = .ok (0, s)) := by
  obtain ⟨q₀, p, h⟩ := h.inv hn hm
  obtain rfl : q₀ = q := h.input.1.holds.unique hq
  have hst : s.pullStop 0 = .ok false := by
    have hne : q₀.length ≠ n := by omega
    simp [pullStop, h.input.1.fullEq, hne]
  have hne : ¬ (S.writeOnly b).available s.stream = 0 := hr
  constructor
  · rintro rfl
    simp only [pullInData, pullLoop, if_neg hne, hst, res_bind_ok]
    rfl
  · rintro rfl
    simp only [pullInData, pullLoop, if_neg hne, hst, res_bind_ok]
    rfl

/-- **C166.** A stream that overrides nothing but `initialize`, in a release build: whatever the application writes is destroyed, one byte with each call of
`push_out_data()`, which reports 0. -/
theorem C166_bare {n m : Nat} (hn : 0 < n) (hm : 0 < m) : ∀ (p : List Byte) {s : BufStream Unit} (_ : Reachable Stream.bare n m s) (_ : s.output.Holds p) (fuel : Nat),
    ∃ s', s.run Stream.bare (List.replicate p.length (.push (fuel + 1))) = .ok s' ∧ s'.output.Holds []
  | [], s, h, hp, fuel => ⟨s, rfl, hp⟩
  | c :: p, s, h, hp, fuel => by
    have hne : Stream.bare.availableForWrite s.stream ≠ 0 := by
      have := lt_sizeMod (n := 1) (by decide)
      change sizeMod - 1 ≠ 0
      omega
    obtain ⟨s₁, e₁, h₁, -⟩ := (C166_read_only Stream.bare hn hm .release h hp hne fuel).2 rfl
    have e₁' : s.pushOutData Stream.bare (fuel + 1) = .ok (0, s₁) := e₁
    have hr : Reachable Stream.bare n m s₁ := by
      obtain ⟨b, D, st, s₀, ops, a1, a2⟩ := h
      refine ⟨b, D, st, s₀, ops ++ [.push (fuel + 1)], a1, ?_⟩
      have key : ∀ (ops : List (Op Unit)) (s₀ : BufStream Unit), s₀.run Stream.bare ops = .ok s → s₀.run Stream.bare (ops ++ [.push (fuel + 1)]) = .ok s₁ := by
        intro ops
        induction ops with
        | nil =>
          intro s₀ h0
          simp [BufStream.run] at h0
          subst h0
          simp [BufStream.run, BufStream.step, e₁']
        | cons op ops ih =>
          intro s₀ h0
          simp only [List.cons_append, BufStream.run] at h0 ⊢
          cases hs : s₀.step Stream.bare op with
          | error f => simp [hs] at h0
          | ok x =>
            simp only [hs, res_bind_ok] at h0 ⊢
            exact ih x h0
      exact key ops s₀ a2
    obtain ⟨s', e', h'⟩ := C166_bare hn hm p hr h₁ fuel
    refine ⟨s', ?_, h'⟩
    simp only [List.length_cons, List.replicate_succ, BufStream.run, BufStream.step, e₁', res_bind_ok, res_pure]
    exact e'

/-- The hypotheses hold: two bytes are written. -/
example : ∃ s₀ s₁ : BufStream Unit, BufStream.create .release () 4 4 [10] = .ok s₀ ∧ s₀.bufferedWriteMany [97, 98] false = .ok (2, s₁) ∧ Reachable Stream.bare 4 4 s₁ ∧
    s₁.output.Holds [97, 98] :=
  ⟨_, _, rfl, rfl, ⟨.release, [10], (), _, [.writeMany [97, 98] false], rfl, rfl⟩, Ring.Rep.holds (n := 4) (by
    refine ⟨rfl, by decide, by decide, by decide, rfl, ?_, ?_⟩
    · decide
    · intro i h
      have hi : i = 0 ∨ i = 1 := by simp at h; omega
      rcases hi with rfl | rfl <;> rfl)⟩

end Spine

import Verif.Model.CommandServer
import Verif.Props.OpenTransaction
/-!
# Property C159: a command server answers every request once, in order, with the right reply
-/

namespace Spine

open BufStream
open Ring hiding Op

/-! ## Specification -/

/-- Every line in `xs`, and what follows the last one, is shorter than `n` bytes: among any `n` bytes in a row
there is a delimiter. -/
def Lines.Short (D : List Byte) (n : Nat) (xs : List Byte) : Prop :=
  ∀ a w c, xs = a ++ (w ++ c) → w.length = n → ∃ x ∈ w, x ∈ D

/-- A line may begin after `a`: nothing came before, or a delimiter. -/
def Lines.Boundary (D a : List Byte) : Prop := a = [] ∨ ∃ a' d, a = a' ++ [d] ∧ d ∈ D

/-- No line in `xs` runs over a multiple of `n`, its delimiter left aside. -/
def Lines.Aligned (D : List Byte) (n : Nat) (xs : List Byte) : Prop :=
  ∀ a line d c, xs = a ++ (line ++ d :: c) → Lines.Boundary D a → (∀ x ∈ line, x ∉ D) → d ∈ D →
    a.length % n + line.length ≤ n

/-- All lines in `xs` have `k` bytes: the delimiters are the bytes at the positions `k`, `2 * k + 1`, ... -/
def Lines.Framed (D : List Byte) (k : Nat) (xs : List Byte) : Prop :=
  ∀ i (h : i < xs.length), xs[i] ∈ D ↔ i % (k + 1) = k

namespace Server

/-- The first line in the input buffer runs over the end of the storage. -/
def Straddles {σ : Type} (D : List Byte) (n : Nat) (s : BufStream σ) : Prop :=
  ∃ q line d rest, s.input.Holds q ∧ q = line ++ d :: rest ∧ d ∈ D ∧ (∀ c ∈ line, c ∉ D) ∧
    n < s.input.ring.tail + line.length

/-- Copies have room for every line that the input buffer can hold. -/
def Roomy (n : Nat) (op : Op) : Prop :=
  ∀ dst mx, op = .serve (.copy dst mx) → n < mx ∧ mx ≤ dst.length

/-! ## Lemmas -/

section
variable {σ : Type} {P : Port σ} {R : σ → List Byte → List Byte → Nat → Prop} {a : Nat}
variable {D : List Byte} {n m M fuel : Nat} {b : Build} {f : List Byte → List Byte}

theorem pop_tail {r r₁ : Ring Byte} {v : Byte} {q : List Byte} (h : Rep n r (v :: q))
    (e : r.pop = .ok (some v, r₁)) : r₁.tail = (r.tail + 1) % n := by
  have he : r.empty = false := by rw [h.emptyEq]; simp
  have hp := h.pos
  have hl := h.len
  unfold Ring.pop at e
  simp only [he, Bool.false_eq_true, if_false] at e
  obtain ⟨x, -, e⟩ := OpenTransaction.bind_ok.mp e
  obtain ⟨t, et, e⟩ := OpenTransaction.bind_ok.mp e
  cases e
  unfold umod at et
  rw [if_neg (by omega)] at et
  cases et
  rw [hl]

theorem dropLoop_tail : ∀ (k : Nat) {r r' : Ring Byte} {q : List Byte}, Rep n r q → k ≤ q.length →
    LineBuf.dropLoop r k = .ok r' → r'.tail = (r.tail + k) % n
  | 0, r, r', q, h, _, e => by
    cases e
    rw [Nat.add_zero, Nat.mod_eq_of_lt h.tailLt]
  | k + 1, r, r', [], h, hk, e => by simp at hk
  | k + 1, r, r', v :: q, h, hk, e => by
    obtain ⟨r₁, e₁, h₁, -⟩ := h.pop_some
    have ht : r₁.tail = (r.tail + 1) % n := pop_tail h e₁
    simp only [LineBuf.dropLoop, e₁, res_bind_ok] at e
    rw [dropLoop_tail k h₁ (by simpa using hk) e, ht, Nat.mod_add_mod]
    congr 1; omega

theorem popLoop_tail : ∀ (k : Nat) {r r' : Ring Byte} {q dst dst' : List Byte} {i : Nat}, Rep n r q → k ≤ q.length →
    r.popLoop dst i k = .ok (dst', r') → r'.tail = (r.tail + k) % n
  | 0, r, r', q, _, _, _, h, _, e => by
    cases e
    rw [Nat.add_zero, Nat.mod_eq_of_lt h.tailLt]
  | k + 1, r, r', [], _, _, _, h, hk, e => by simp at hk
  | k + 1, r, r', v :: q, dst, dst', i, h, hk, e => by
    obtain ⟨r₁, e₁, h₁, -⟩ := h.pop_some
    have ht : r₁.tail = (r.tail + 1) % n := pop_tail h e₁
    simp only [Ring.popLoop, e₁, res_bind_ok] at e
    obtain ⟨d₁, -, e⟩ := OpenTransaction.bind_ok.mp e
    rw [popLoop_tail k h₁ (by simpa using hk) e, ht, Nat.mod_add_mod]
    congr 1; omega

theorem drop_tail {l l' : LineBuf} {q line rest : List Byte} (h : Rep n l.ring q) (hf : Lines.First l.delims q line rest)
    (e : l.dropNextLine none = .ok (true, l')) : l'.ring.tail = (l.ring.tail + line.length + 1) % n := by
  have hd := LineBuf.discovered_first h hf (d := none) (.inl rfl)
  obtain ⟨c, hc, he, hl⟩ := hf
  subst he
  obtain ⟨r₁, e₁, h₁⟩ := LineBuf.dropLoop_rep line.length h (by simp)
  have h₁' : Rep n r₁ (c :: rest) := by simpa using h₁
  obtain ⟨r₂, e₂, h₂, o₂⟩ := h₁'.pop_some
  have t₁ := dropLoop_tail line.length h (by simp) e₁
  have t₂ := pop_tail h₁' e₂
  unfold LineBuf.dropNextLine at e
  simp [hd, e₁, e₂] at e
  subst e
  show r₂.tail = _
  rw [t₂, t₁, Nat.mod_add_mod]

theorem get_tail {l l' : LineBuf} {q line rest dst dst' : List Byte} {mx k : Nat} (h : Rep n l.ring q)
    (hf : Lines.First l.delims q line rest) (hmx : line.length + 1 ≤ mx) (hdst : mx ≤ dst.length)
    (e : l.getNextLine dst mx none = .ok ((k, dst'), l')) : l'.ring.tail = (l.ring.tail + line.length + 1) % n := by
  have hd := LineBuf.discovered_first h hf (d := none) (.inl rfl)
  obtain ⟨c, hc, he, hl⟩ := hf
  subst he
  unfold LineBuf.getNextLine at e
  rw [hd] at e
  simp only [res_bind_ok] at e
  rw [if_neg (by omega)] at e
  obtain ⟨r₁, e₁, h₁, -⟩ := Rep.popLoop line.length dst 0 h (by simp) (by omega)
  replace h₁ : Rep n r₁ (c :: rest) := by simpa using h₁
  have t₁ := popLoop_tail line.length h (by simp) e₁
  simp only [Nat.add_sub_cancel, e₁, res_bind_ok] at e
  obtain ⟨r₂, e₂, h₂, o₂⟩ := h₁.pop_some
  have t₂ := pop_tail h₁ e₂
  simp only [e₂, res_bind_ok] at e
  obtain ⟨d₂, -, e⟩ := OpenTransaction.bind_ok.mp e
  cases e
  show r₂.tail = _
  rw [t₂, t₁, Nat.mod_add_mod]

theorem serve_idle {s : BufStream σ} {q p : List Byte} (h : Inv n m s q p) (g : Device.Log) (how : How)
    (hi : m - p.length ≤ M ∨ Lines.NoLine s.input.delims q) : serve b f M s g how = .ok (g, s) := by
  have hfree : s.output.ring.freeSpace = m - p.length := h.output.free
  rcases hi with hi | hno
  · cases how <;> simp [serve, hfree, Nat.not_lt.mpr hi]
  · cases how with
    | view => simp [serve, Transaction.new_none h hno b]
    | copy dst mx => simp [serve, LineBuf.hasLine, LineBuf.length_none h.input.1 hno]

theorem serve_first {s : BufStream σ} {q p line rest : List Byte} (h : Inv n m s q p) (hM : ∀ l, (f l).length ≤ M)
    (g : Device.Log) (how : How) (hr : Roomy n (.serve how)) (hroom : M < m - p.length)
    (hf : Lines.First s.input.delims q line rest) (hv : how = .view → s.input.ring.tail + line.length ≤ n) :
    ∃ s', serve b f M s g how = .ok ({ g with lines := g.lines ++ [line], written := g.written ++ f line }, s') ∧
      Inv n m s' rest (p ++ f line) ∧ s'.stream = s.stream ∧ s'.input.delims = s.input.delims ∧
      s'.input.ring.overwritten = 0 ∧ s'.input.ring.tail = (s.input.ring.tail + line.length + 1) % n := by
  have hfree : s.output.ring.freeSpace = m - p.length := h.output.free
  have hlen : line.length + 1 ≤ n := by
    have := h.input.1.qle
    obtain ⟨d, -, he, -⟩ := hf
    rw [he] at this
    simp at this
    omega
  have hl := hM line
  obtain ⟨r', er, hr', -⟩ := Ring.Rep.pushMany_false (f line) h.output
  rw [List.take_of_length_le (by omega)] at hr'
  have hmin : min (f line).length (m - p.length) = (f line).length := by omega
  rw [hmin] at er
  cases how with
  | view =>
    have hs := OpenTransaction.view_shows h.input.1 hf
    rw [if_pos (hv rfl)] at hs
    obtain ⟨l', e', h', hd', ho'⟩ := LineBuf.dropNextLine_first h.input.1 hf (d := none) (.inl rfl)
    refine ⟨{ s with input := l', output := { s.output with ring := r' } }, ?_, ⟨⟨h', by simp [ho']⟩, hr'⟩, rfl, hd', ho',
      drop_tail h.input.1 hf e'⟩
    have hmin' : min (m - p.length) (f line).length = (f line).length := by omega
    have hgt : M < m - p.length := hroom
    simp [serve, hfree, hgt, OpenTransaction.new_view h hf b, Transaction.incoming, hs, Transaction.outgoing,
      Transaction.spaceLeft, Transaction.deref, hmin', bufferedWriteMany, er, Transaction.commit, Transaction.finalize,
      BufStream.dropNextLine, e', Transaction.destroy, show (f line).length < m - p.length by omega]
  | copy dst mx =>
    obtain ⟨hm, hdst⟩ := hr dst mx rfl
    obtain ⟨l', e', h', hd', ho'⟩ := LineBuf.getNextLine_first' h.input.1 hf (.inl rfl) dst mx (by omega) hdst
    have ht : (line ++ [0] ++ dst.drop (line.length + 1)).take line.length = line := by
      rw [List.append_assoc, List.take_left']; rfl
    refine ⟨{ s with input := l', output := { s.output with ring := r' } }, ?_, ⟨⟨h', by simp [ho']⟩, hr'⟩, rfl, hd', ho',
      get_tail h.input.1 hf (by omega) hdst e'⟩
    have hll := LineBuf.length_first h.input.1 hf
    simp only [serve, hfree, hroom, gt_iff_lt, if_true, LineBuf.hasLine, hll, getNextLine, e', res_bind_ok, res_pure, ht,
      bufferedWriteMany, er, List.take_length]
    simp

theorem serve_straddles {s : BufStream σ} {q p line rest : List Byte} (h : Inv n m s q p)
    (g : Device.Log) (hroom : M < m - p.length)
    (hf : Lines.First s.input.delims q line rest) (hv : n < s.input.ring.tail + line.length) :
    serve b f M s g .view = .error .ub := by
  have hfree : s.output.ring.freeSpace = m - p.length := h.output.free
  have hs := OpenTransaction.view_shows h.input.1 hf
  rw [if_neg (by omega)] at hs
  simp [serve, hfree, hroom, OpenTransaction.new_view h hf b, Transaction.incoming, hs]

/-- What `pull_in_data()` does when the lines are short: nothing is overwritten, and it stops only when nothing is
left or the buffer is full. -/
theorem pullLoop_fits (hS : P.stream.Lossless R) {outq : List Byte} {room : Nat} :
    ∀ (fuel : Nat) {s : BufStream σ} {q inq : List Byte} (last : Byte) (cnt : Nat),
    Rep n s.input.ring q → s.input.ring.overwritten = 0 →
    (n ≤ (q ++ inq).length → ¬ Lines.NoLine s.input.delims ((q ++ inq).take n)) →
    R s.stream inq outq room → inq.length < fuel →
    ∃ k s', s.pullLoop P.stream fuel last cnt = .ok (cnt + k, s') ∧ k ≤ inq.length ∧ q.length + k ≤ n ∧
      Rep n s'.input.ring (q ++ inq.take k) ∧ s'.input.ring.overwritten = 0 ∧ s'.input.ring.tail = s.input.ring.tail ∧
      s'.output = s.output ∧ s'.input.delims = s.input.delims ∧ R s'.stream (inq.drop k) outq room ∧
      (k < inq.length → q.length + k = n)
  | 0, s, q, inq, last, cnt, h, ho, hw, hR, hf => by omega
  | fuel + 1, s, q, [], last, cnt, h, ho, hw, hR, hf => by
    have ha : P.stream.available s.stream = 0 := (hS.available hR).mpr rfl
    exact ⟨0, s, by simp [pullLoop, ha], by simp, by simpa using h.qle, by simpa using h, ho, rfl, rfl, rfl, by simpa using hR,
      fun hlt => absurd hlt (by simp)⟩
  | fuel + 1, s, q, c :: inq, last, cnt, h, ho, hw, hR, hf => by
    have ha : ¬ P.stream.available s.stream = 0 := fun h0 => by
      have := (hS.available hR).mp h0
      cases this
    unfold pullLoop
    rw [if_neg ha]
    obtain ⟨b, eb⟩ := pullStop_ok h last
    have hb := pullStop_iff h eb
    simp only [eb, res_bind_ok]
    cases b with
    | true =>
      exact ⟨0, s, by simp, by simp, by simpa using h.qle, by simpa using h, ho, rfl, rfl, rfl, by simpa using hR,
        fun _ => (hb.mp rfl).1⟩
    | false =>
      have hq : q.length < n := by
        have hle := h.qle
        by_contra hc
        have hqn : q.length = n := by omega
        have := hb.mpr ⟨hqn, .inr ⟨ho, by
          have := hw (by simp; omega)
          rwa [List.take_left' hqn] at this⟩⟩
        cases this
      obtain ⟨st, er, hR'⟩ := hS.read hR
      obtain ⟨r', ep, h', o'⟩ := h.push_space c true hq
      have htl := OpenTransaction.push_tail h hq ep
      obtain ⟨k, s', e', h1, h2, h3, h4, h5, h6, h7, h8, h9⟩ := pullLoop_fits hS fuel
        (s := { s with stream := st, input := { s.input with ring := r' } }) (q := q ++ [c]) (inq := inq) c (cnt + 1)
        h' (o'.trans ho) (by simpa using hw) hR' (by simpa using hf)
      refine ⟨k + 1, s', ?_, by simpa using h1, by simp at h2; omega, by simpa using h3, h4, h5.trans htl, h6, h7,
        by simpa using h8, fun hlt => ?_⟩
      · simp only [Bool.false_eq_true, if_false, er, res_bind_ok, ep, e']
        congr 2; omega
      · have := h9 (by simpa using hlt)
        simp at this; omega

/-- Histories: if every event keeps an invariant or fails for a line that runs over the end of the storage, so does a
history. -/
theorem run_induct (I : BufStream σ → Device.Log → Prop) (hyp : Device.Log → Prop)
    (hstep : ∀ s g op, I s g → hyp g → Roomy n op →
      (∃ s' g', step P b f M fuel s g op = .ok (g', s') ∧ (hyp g' → I s' g')) ∨
      (op = .serve .view ∧ step P b f M fuel s g op = .error .ub ∧ Straddles D n s)) :
    ∀ (ops : List Op) {s : BufStream σ} {g : Device.Log}, I s g → (∀ op ∈ ops, Roomy n op) →
    (∀ ops₁ g₁ s₁, ops₁ <+: ops → run P b f M fuel s g ops₁ = .ok (g₁, s₁) → hyp g₁) →
    (∃ s' g', run P b f M fuel s g ops = .ok (g', s') ∧ I s' g') ∨
    (run P b f M fuel s g ops = .error .ub ∧ ∃ ops₁ ops₂ g₁ s₁, ops = ops₁ ++ .serve .view :: ops₂ ∧
      run P b f M fuel s g ops₁ = .ok (g₁, s₁) ∧ Straddles D n s₁)
  | [], s, g, h, _, _ => .inl ⟨s, g, rfl, h⟩
  | op :: ops, s, g, h, hr, hy => by
    rcases hstep s g op h (hy [] g s (by simp) rfl) (hr op (by simp)) with ⟨s', g', e, hI⟩ | ⟨rfl, e, hs⟩
    · have hg' : hyp g' := hy [op] g' s' (by simp) (by simp [run, e])
      rcases run_induct I hyp hstep ops (hI hg') (fun o ho => hr o (by simp [ho])) (fun ops₁ g₁ s₁ hp e₁ =>
        hy (op :: ops₁) g₁ s₁ (by simpa using hp) (by simpa [run, e] using e₁)) with ⟨s₂, g₂, e₂, h₂⟩ | ⟨e₂, ops₁, ops₂, g₁, s₁, ho, e₁, hs⟩
      · exact .inl ⟨s₂, g₂, by simpa [run, e] using e₂, h₂⟩
      · exact .inr ⟨by simpa [run, e] using e₂, op :: ops₁, ops₂, g₁, s₁, by simp [ho], by simpa [run, e] using e₁, hs⟩
    · exact .inr ⟨by simp [run, e], [], ops, g, s, rfl, rfl, hs⟩

/-- Any requests. -/
def Loose (R : σ → List Byte → List Byte → Nat → Prop) (D : List Byte) (n m : Nat) (f : List Byte → List Byte)
    (s : BufStream σ) (g : Device.Log) : Prop :=
  ∃ q p inq outq, Device.Ok R D n m False true s g q p inq outq ∧ g.written = g.lines.flatMap f

theorem loose_step (hP : P.Lossless R a) (hfa : a < fuel) (hfm : m < fuel) (hM : ∀ l, (f l).length ≤ M)
    (s : BufStream σ) (g : Device.Log) (op : Op) (h : Loose R D n m f s g) (hr : Roomy n op) :
    (∃ s' g', step P b f M fuel s g op = .ok (g', s') ∧ (True → Loose R D n m f s' g')) ∨
      (op = .serve .view ∧ step P b f M fuel s g op = .error .ub ∧ Straddles D n s) := by
  obtain ⟨q, p, inq, outq, h, hw⟩ := h
  have other : ∀ o : Device.Op, (∀ dst mx, o ≠ .poll dst mx) → step P b f M fuel s g op = Device.step P fuel s g o →
      (∀ g' s', Device.step P fuel s g o = .ok (g', s') → g'.written = g.written ∧ g'.lines = g.lines) →
      ∃ s' g', step P b f M fuel s g op = .ok (g', s') ∧ (True → Loose R D n m f s' g') := by
    intro o ho he hk
    obtain ⟨s₁, g₁, q₁, p₁, inq₁, outq₁, ok₁, e₁, h₁⟩ := Device.run_ok hP D n m fuel hfa hfm False [o] true h
      (fun dst mx hm => by simp at hm; exact absurd hm.symm (ho dst mx)) (·.elim)
    have hs : Device.step P fuel s g o = .ok (g₁, s₁) := by
      simp only [Device.run] at e₁
      cases hst : Device.step P fuel s g o with
      | error f => rw [hst] at e₁; cases e₁
      | ok x =>
        obtain ⟨x1, x2⟩ := x
        rw [hst] at e₁
        simpa using e₁
    obtain ⟨k1, k2⟩ := hk _ _ hs
    exact ⟨s₁, g₁, he.trans hs, fun _ => ⟨q₁, p₁, inq₁, outq₁, { h₁ with ready := fun x => x.elim }, by rw [k1, k2, hw]⟩⟩
  cases op with
  | inject bytes =>
    refine .inl (other (.inject bytes) (by simp) rfl ?_)
    intro g' s' hs
    simp only [Device.step] at hs
    obtain ⟨x, -, hs⟩ := OpenTransaction.bind_ok.mp hs
    cases hs; exact ⟨rfl, rfl⟩
  | extract k =>
    refine .inl (other (.extract k) (by simp) rfl ?_)
    intro g' s' hs
    simp only [Device.step] at hs
    obtain ⟨x, -, hs⟩ := OpenTransaction.bind_ok.mp hs
    cases hs; exact ⟨rfl, rfl⟩
  | pull =>
    refine .inl (other .pull (by simp) rfl ?_)
    intro g' s' hs
    simp only [Device.step] at hs
    obtain ⟨x, -, hs⟩ := OpenTransaction.bind_ok.mp hs
    cases hs; exact ⟨rfl, rfl⟩
  | push =>
    refine .inl (other .push (by simp) rfl ?_)
    intro g' s' hs
    simp only [Device.step] at hs
    obtain ⟨x, -, hs⟩ := OpenTransaction.bind_ok.mp hs
    cases hs; exact ⟨rfl, rfl⟩
  | serve how =>
    have hD := h.delims
    by_cases hroom : M < m - p.length
    · rcases Lines.first_or_none s.input.delims q with hno | ⟨line, rest, hf⟩
      · exact .inl ⟨s, g, serve_idle h.inv g how (.inr hno), fun _ => ⟨q, p, inq, outq, h, hw⟩⟩
      · by_cases hv : how = .view → s.input.ring.tail + line.length ≤ n
        · obtain ⟨s', e, hi, hst, hd, -, -⟩ := serve_first (b := b) h.inv hM g how hr hroom hf hv
          refine .inl ⟨s', _, e, fun _ => ⟨rest, p ++ f line, inq, outq, ?_, by simp [hw]⟩⟩
          exact h.consume (hD ▸ hf) hi hst (hd.trans hD)
        · push Not at hv
          obtain ⟨rfl, hv⟩ := hv
          have hv := Nat.not_le.mp hv
          refine .inr ⟨rfl, serve_straddles h.inv g hroom hf hv, ?_⟩
          obtain ⟨d, hd, he, hl⟩ := hf
          exact ⟨q, line, d, rest, h.inv.input.1.holds, he, hD ▸ hd, hD ▸ hl, hv⟩
    · exact .inl ⟨s, g, serve_idle h.inv g how (.inl (by omega)), fun _ => ⟨q, p, inq, outq, h, hw⟩⟩

/-- Short requests: nothing is lost, and the position of the next request in the storage is the number of bytes of
the requests before. -/
structure Served (R : σ → List Byte → List Byte → Nat → Prop) (D : List Byte) (n m : Nat) (f : List Byte → List Byte)
    (s : BufStream σ) (g : Device.Log) (q p inq outq : List Byte) (room : Nat) : Prop where
  inv : Inv n m s q p
  port : R s.stream inq outq room
  delims : s.input.delims = D
  fine : s.input.ring.overwritten = 0
  lost : g.lost = 0
  output : g.written = g.received ++ (outq ++ p)
  replies : g.written = g.lines.flatMap f
  input : ∃ ends : List (List Byte × Byte), ends.map Prod.fst = g.lines ∧ (∀ e ∈ ends, e.2 ∈ D ∧ ∀ c ∈ e.1, c ∉ D) ∧
    g.sent = Lines.bytes ends ++ (q ++ inq) ∧ s.input.ring.tail = (Lines.bytes ends).length % n

theorem bytes_boundary {ends : List (List Byte × Byte)} (h : ∀ e ∈ ends, e.2 ∈ D ∧ ∀ c ∈ e.1, c ∉ D) :
    Lines.Boundary D (Lines.bytes ends) := by
  rcases List.eq_nil_or_concat ends with rfl | ⟨l, e, rfl⟩
  · exact .inl rfl
  · exact .inr ⟨Lines.bytes l ++ e.1, e.2, by simp [Lines.bytes], (h e (by simp)).1⟩

theorem split_bytes : ∀ {ends : List (List Byte × Byte)} {q : List Byte} {ls : List (List Byte)} {t : List Byte},
    (∀ e ∈ ends, e.2 ∈ D ∧ ∀ c ∈ e.1, c ∉ D) → Lines.Split D q ls t →
    Lines.Split D (Lines.bytes ends ++ q) (ends.map Prod.fst ++ ls) t
  | [], q, ls, t, _, hs => by simpa [Lines.bytes] using hs
  | e :: ends, q, ls, t, h, hs => by
    refine .line (rest := Lines.bytes ends ++ q) ⟨e.2, (h e (by simp)).1, by simp [Lines.bytes], (h e (by simp)).2⟩ ?_
    exact split_bytes (fun e he => h e (by simp [he])) hs

variable {s : BufStream σ} {g : Device.Log} {q p inq outq : List Byte} {room : Nat}

theorem Served.pull (hP : P.Lossless R a) (hfa : a < fuel) (h : Served R D n m f s g q p inq outq room)
    (hs : Lines.Short D n g.sent) : ∃ k s', step P b f M fuel s g .pull = .ok (g, s') ∧ k ≤ inq.length ∧
      Served R D n m f s' g (q ++ inq.take k) p (inq.drop k) outq room ∧ (k < inq.length → q.length + k = n) := by
  obtain ⟨ends, h1, h2, h3, h4⟩ := h.input
  have hw : n ≤ (q ++ inq).length → ¬ Lines.NoLine s.input.delims ((q ++ inq).take n) := by
    intro hn hno
    obtain ⟨x, hx, hxD⟩ := hs (Lines.bytes ends) ((q ++ inq).take n) ((q ++ inq).drop n)
      (by rw [List.take_append_drop]; exact h3) (by rw [List.length_take]; omega)
    exact hno x hx (h.delims ▸ hxD)
  obtain ⟨k, s', e, k1, k2, k3, k4, k5, k6, k7, k8, k9⟩ := pullLoop_fits hP.stream fuel 0 0 h.inv.input.1 h.fine hw h.port
    (by have := hP.bound h.port; omega)
  refine ⟨k, s', ?_, k1, ⟨⟨⟨k3, by simp [k4]⟩, by rw [k6]; exact h.inv.output⟩, k8, k7.trans h.delims, k4, h.lost, h.output,
    h.replies, ends, h1, h2, ?_, k5.trans h4⟩, k9⟩
  · have hu := h.inv.input.1.used
    have hu' := k3.used
    have hl : q.length + (0 + k) - (q ++ inq.take k).length = 0 := by simp; omega
    simp only [step, Device.step, pullInData, e, res_bind_ok, res_pure, hu, hu', hl, Nat.add_zero]
  · rw [List.append_assoc, List.take_append_drop]; exact h3

theorem Served.push (hP : P.Lossless R a) (hfm : m < fuel) (h : Served R D n m f s g q p inq outq room) :
    ∃ s' room', step P b f M fuel s g .push = .ok (g, s') ∧
      Served R D n m f s' g q (p.drop room) inq (outq ++ p.take room) room' := by
  have hpl : p.length < fuel := by have := h.inv.output.qle; omega
  obtain ⟨s₁, e, hrep, hin, hdel, hR⟩ := pushLoop_spec hP.stream fuel (s := s) 0 h.inv.output h.port (by omega)
  refine ⟨s₁, _, by simp only [step, Device.step, pushOutData, e, res_bind_ok, res_pure], ⟨⟨by rw [hin]; exact h.inv.input, hrep⟩, hR,
    by rw [hin]; exact h.delims, by rw [hin]; exact h.fine, h.lost, by simpa using h.output, h.replies, by rw [hin]; exact h.input⟩⟩

theorem Served.inject (hP : P.Lossless R a) (h : Served R D n m f s g q p inq outq room) (bytes : List Byte) :
    ∃ k s', step P b f M fuel s g (.inject bytes) = .ok ({ g with sent := g.sent ++ bytes.take k }, s') ∧
      Served R D n m f s' { g with sent := g.sent ++ bytes.take k } q p (inq ++ bytes.take k) outq room := by
  obtain ⟨k, m', e, hk, hm'⟩ := hP.inject bytes h.port
  refine ⟨k, { s with stream := m' }, by simp only [step, Device.step, e, res_bind_ok, res_pure], ⟨⟨h.inv.input, h.inv.output⟩, hm', h.delims,
    h.fine, h.lost, h.output, h.replies, ?_⟩⟩
  obtain ⟨ends, h1, h2, h3, h4⟩ := h.input
  exact ⟨ends, h1, h2, by simp [h3], h4⟩

theorem Served.extract (hP : P.Lossless R a) (h : Served R D n m f s g q p inq outq room) (k : Nat) :
    ∃ gone rest s' room', step P b f M fuel s g (.extract k) = .ok ({ g with received := g.received ++ gone }, s') ∧
      P.extract s.stream k = .ok (gone, s'.stream) ∧ R s'.stream inq rest room' ∧ outq = gone ++ rest ∧
      Served R D n m f s' { g with received := g.received ++ gone } q p inq rest room' := by
  obtain ⟨gone, rest, m', room', e, he, hm'⟩ := hP.extract k h.port
  refine ⟨gone, rest, { s with stream := m' }, room', by simp only [step, Device.step, e, res_bind_ok, res_pure], e, hm', he,
    ⟨⟨h.inv.input, h.inv.output⟩, hm', h.delims, h.fine, h.lost, by simp [h.output, he], h.replies, h.input⟩⟩

theorem Served.serve (hM : ∀ l, (f l).length ≤ M) (h : Served R D n m f s g q p inq outq room) (how : How)
    (hr : Roomy n (.serve how)) :
    (step P b f M fuel s g (.serve how) = .ok (g, s) ∧ (m - p.length ≤ M ∨ Lines.NoLine D q)) ∨
    (∃ s' line rest, Lines.First D q line rest ∧
      step P b f M fuel s g (.serve how) = .ok ({ g with lines := g.lines ++ [line], written := g.written ++ f line }, s') ∧
      Served R D n m f s' { g with lines := g.lines ++ [line], written := g.written ++ f line } rest (p ++ f line) inq outq room) ∨
    (how = .view ∧ step P b f M fuel s g (.serve how) = .error .ub ∧ Straddles D n s ∧ ¬ Lines.Aligned D n g.sent) := by
  have hD := h.delims
  obtain ⟨ends, h1, h2, h3, h4⟩ := h.input
  by_cases hroom : M < m - p.length
  · rcases Lines.first_or_none s.input.delims q with hno | ⟨line, rest, hf⟩
    · exact .inl ⟨serve_idle h.inv g how (.inr hno), .inr (hD ▸ hno)⟩
    · by_cases hv : how = .view → s.input.ring.tail + line.length ≤ n
      · obtain ⟨s', e, hi, hst, hd, ho, ht⟩ := serve_first (b := b) h.inv hM g how hr hroom hf hv
        rw [hD] at hf
        refine .inr (.inl ⟨s', line, rest, hf, e, ⟨hi, by rw [hst]; exact h.port, hd.trans hD, ho, h.lost, by simp [h.output],
          by simp [h.replies], ?_⟩⟩)
        obtain ⟨d, hdD, he, hl⟩ := hf
        refine ⟨ends ++ [(line, d)], by simp [h1], ?_, by simp [h3, Lines.bytes, he], ?_⟩
        · intro e' he'
          rcases List.mem_append.mp he' with he' | he'
          · exact h2 e' he'
          · simp at he'; subst he'; exact ⟨hdD, hl⟩
        · rw [ht, h4, Nat.add_assoc, Nat.mod_add_mod]
          simp [Lines.bytes]
      · push Not at hv
        obtain ⟨rfl, hv⟩ := hv
        have hv := Nat.not_le.mp hv
        refine .inr (.inr ⟨rfl, serve_straddles h.inv g hroom hf hv, ?_⟩)
        obtain ⟨d, hd, he, hl⟩ := hf
        refine ⟨⟨q, line, d, rest, h.inv.input.1.holds, he, hD ▸ hd, hD ▸ hl, hv⟩, fun hal => ?_⟩
        have := hal (Lines.bytes ends) line d (rest ++ inq) (by simp [h3, he]) (bytes_boundary h2) (hD ▸ hl) (hD ▸ hd)
        omega
  · exact .inl ⟨serve_idle h.inv g how (.inl (by omega)), .inl (by omega)⟩

theorem served_step (hP : P.Lossless R a) (hfa : a < fuel) (hfm : m < fuel) (hM : ∀ l, (f l).length ≤ M)
    (s : BufStream σ) (g : Device.Log) (op : Op)
    (h : ∃ q p inq outq room, Served R D n m f s g q p inq outq room) (hs : Lines.Short D n g.sent) (hr : Roomy n op) :
    (∃ s' g', step P b f M fuel s g op = .ok (g', s') ∧ ∃ q p inq outq room, Served R D n m f s' g' q p inq outq room) ∨
      (op = .serve .view ∧ step P b f M fuel s g op = .error .ub ∧ Straddles D n s ∧ ¬ Lines.Aligned D n g.sent) := by
  obtain ⟨q, p, inq, outq, room, h⟩ := h
  cases op with
  | inject bytes =>
    obtain ⟨k, s', e, h'⟩ := h.inject hP bytes
    exact .inl ⟨s', _, e, _, _, _, _, _, h'⟩
  | extract k =>
    obtain ⟨gone, rest, s', room', e, -, -, -, h'⟩ := h.extract hP k
    exact .inl ⟨s', _, e, _, _, _, _, _, h'⟩
  | pull =>
    obtain ⟨k, s', e, -, h', -⟩ := h.pull hP hfa hs
    exact .inl ⟨s', _, e, _, _, _, _, _, h'⟩
  | push =>
    obtain ⟨s', room', e, h'⟩ := h.push hP hfm
    exact .inl ⟨s', _, e, _, _, _, _, _, h'⟩
  | serve how =>
    rcases h.serve hM how hr with ⟨e, -⟩ | ⟨s', line, rest, -, e, h'⟩ | ⟨rfl, e, h1, h2⟩
    · exact .inl ⟨s, g, e, _, _, _, _, _, h⟩
    · exact .inl ⟨s', _, e, _, _, _, _, _, h'⟩
    · exact .inr ⟨rfl, e, h1, h2⟩

theorem fresh_served (bld : Build) (hn : 0 < n) (hm : 0 < m) (D : List Byte) (f : List Byte → List Byte)
    {st : σ} {room : Nat} (hR : R st [] [] room) :
    ∃ s, BufStream.create bld st n m D = .ok s ∧ Served R D n m f s ⟨[], [], [], [], 0⟩ [] [] [] [] room := by
  obtain ⟨s, es, hi, hst, hd, -, ho⟩ := create_inv hn hm bld st D
  refine ⟨s, es, hi, by rw [hst]; exact hR, hd, ho, rfl, rfl, rfl, [], rfl, by simp, by simp [Lines.bytes], ?_⟩
  have : s.input.ring.tail = 0 := by
    cases bld <;> simp [BufStream.create, LineBuf.create, Ring.create, spnAssert, hn, hm] at es <;> subst es <;> rfl
  simp [this, Lines.bytes]

/-- What a client sees. -/
theorem Served.seen (h : Served R D n m f s g q p inq outq room) : s.input.Holds q ∧ s.output.Holds p ∧
    R s.stream inq outq room ∧ g.received ++ outq ++ p = g.lines.flatMap f ∧
    ∀ left tail, Lines.Split D (q ++ inq) left tail → Lines.Split D g.sent (g.lines ++ left) tail := by
  refine ⟨h.inv.input.1.holds, h.inv.output.holds, h.port, ?_, ?_⟩
  · rw [← h.replies, h.output]; simp
  · intro left tail hs
    obtain ⟨ends, h1, h2, h3, -⟩ := h.input
    rw [h3, ← h1]
    exact split_bytes h2 hs

theorem framed_aligned {k : Nat} (hk : (k + 1) ∣ n) (hn : 0 < n) {xs : List Byte} (h : Lines.Framed D k xs) :
    Lines.Short D n xs ∧ Lines.Aligned D n xs := by
  have hkn := Nat.le_of_dvd hn hk
  constructor
  · intro a w c e hw
    -- the first position at least `a.length` that is a delimiter
    have hlt : k - a.length % (k + 1) < w.length := by omega
    have hm : a.length % (k + 1) < k + 1 := Nat.mod_lt _ (by omega)
    refine ⟨w[k - a.length % (k + 1)], List.getElem_mem _, ?_⟩
    have := (h (a.length + (k - a.length % (k + 1))) (by rw [e]; simp; omega)).mpr (by
      rw [Nat.add_mod, Nat.mod_eq_of_lt (show k - a.length % (k + 1) < k + 1 by omega), show a.length % (k + 1) + (k - a.length % (k + 1)) = k by omega,
        Nat.mod_eq_of_lt (by omega)])
    simpa [e, List.getElem_append_right, List.getElem_append_left hlt] using this
  · intro a line d c e hb hl hd
    -- `a` is a whole number of lines
    have ha : a.length % (k + 1) = 0 := by
      rcases hb with rfl | ⟨a', d', rfl, hd'⟩
      · simp
      · have := (h a'.length (by rw [e]; simp)).mp (by simpa [e] using hd')
        simp only [List.length_append, List.length_cons, List.length_nil]
        rw [Nat.add_mod, this]; simp
    have hle : line.length ≤ k := by
      by_contra hc
      have hlt : k < line.length := by omega
      have := (h (a.length + k) (by rw [e]; simp; omega)).mpr (by
        rw [Nat.add_mod, ha, Nat.zero_add, Nat.mod_mod, Nat.mod_eq_of_lt (by omega)])
      refine hl line[k] (List.getElem_mem _) ?_
      simpa [e, List.getElem_append_right, List.getElem_append_left hlt] using this
    obtain ⟨j, rfl⟩ := hk
    have h1 : a.length % ((k + 1) * j) % (k + 1) = 0 := by rw [Nat.mod_mul_right_mod, ha]
    have h2 := Nat.mod_lt a.length hn
    obtain ⟨i, hi⟩ := Nat.dvd_of_mod_eq_zero h1
    rw [hi] at h2 ⊢
    have h3 : i < j := Nat.lt_of_mul_lt_mul_left h2
    have h4 : (k + 1) * (i + 1) ≤ (k + 1) * j := Nat.mul_le_mul_left _ h3
    rw [Nat.mul_add] at h4
    omega

/-- The remote side takes everything that has been sent, and then there is room for more. -/
def Drains (P : Port σ) (R : σ → List Byte → List Byte → Nat → Prop) (k : Nat) : Prop :=
  ∀ s inq outq room, R s inq outq room → ∃ s' room', P.extract s k = .ok (outq, s') ∧ R s' inq [] room' ∧ 0 < room'

/-- One round of the application's loop, in which the remote side listens. -/
def round (how : How) (k : Nat) : List Op := [.pull, .serve how, .push, .extract k]

theorem run_append : ∀ (ops ops' : List Op) (s : BufStream σ) (g : Device.Log), run P b f M fuel s g (ops ++ ops') =
    (do let x ← run P b f M fuel s g ops; run P b f M fuel x.2 x.1 ops')
  | [], ops', s, g => by simp [run]
  | op :: ops, ops', s, g => by
    simp only [List.cons_append, run]
    cases step P b f M fuel s g op with
    | error e => rfl
    | ok x => simpa using run_append ops ops' x.2 x.1

theorem Served.drain (h : Served R D n m f s g q p inq outq room) {k : Nat} (hX : Drains P R k) :
    ∃ s' room', step P b f M fuel s g (.extract k) = .ok ({ g with received := g.received ++ outq }, s') ∧ 0 < room' ∧
      Served R D n m f s' { g with received := g.received ++ outq } q p inq [] room' := by
  obtain ⟨st, room', e, hR, hpos⟩ := hX _ _ _ _ h.port
  refine ⟨{ s with stream := st }, room', by simp only [step, Device.step, e, res_bind_ok, res_pure], hpos,
    ⟨⟨h.inv.input, h.inv.output⟩, hR, h.delims, h.fine, h.lost, by simp [h.output], h.replies, h.input⟩⟩

/-- What a round gets done. -/
theorem round_step (hP : P.Lossless R a) (hfa : a < fuel) (hfm : m < fuel) (hM : ∀ l, (f l).length ≤ M) (hMm : M < m)
    {k : Nat} (hX : Drains P R k) (how : How) (hr : Roomy n (.serve how))
    (h : Served R D n m f s g q p inq [] room) (hpos : 0 < room) (hs : Lines.Short D n g.sent)
    (hal : how = .view → Lines.Aligned D n g.sent) :
    ∃ s' g' q' p' inq' room', run P b f M fuel s g (round how k) = .ok (g', s') ∧ g'.sent = g.sent ∧ 0 < room' ∧
      Served R D n m f s' g' q' p' inq' [] room' ∧
      ((p = [] ∧ Lines.NoLine D (q ++ inq)) → p' = [] ∧ Lines.NoLine D (q' ++ inq')) ∧
      ((p' = [] ∧ Lines.NoLine D (q' ++ inq')) ∨
        (M + 2) * (q' ++ inq').length + p'.length < (M + 2) * (q ++ inq).length + p.length) := by
  obtain ⟨j, s₁, e₁, hj, h₁, hfull⟩ := h.pull (b := b) (M := M) hP hfa hs
  have hqi : q ++ inq.take j ++ inq.drop j = q ++ inq := by rw [List.append_assoc, List.take_append_drop]
  have hqlen := congrArg List.length hqi
  rcases h₁.serve (P := P) (b := b) (fuel := fuel) hM how hr with ⟨e₂, hidle⟩ | ⟨s₂, line, rest, hf, e₂, h₂⟩ | ⟨hv, -, -, hna⟩
  · obtain ⟨s₃, room₃, e₃, h₃⟩ := h₁.push (b := b) (M := M) hP hfm
    obtain ⟨s₄, room₄, e₄, hpos₄, h₄⟩ := h₃.drain (b := b) (M := M) (fuel := fuel) hX
    refine ⟨s₄, { g with received := g.received ++ ([] ++ p.take room) }, _, _, _, room₄, by simp [round, run, e₁, e₂, e₃, e₄], rfl, hpos₄, h₄, ?_, ?_⟩
    · rintro ⟨rfl, hno⟩
      exact ⟨by simp, hqi ▸ hno⟩
    · rw [hqi]
      by_cases hp : p = []
      · subst hp
        rcases hidle with hidle | hno
        · simp at hidle; omega
        · left
          refine ⟨by simp, ?_⟩
          have hje : j = inq.length := by
            by_contra hne
            have hlt : j < inq.length := by omega
            have hln := hfull hlt
            obtain ⟨ends, -, -, hsent, -⟩ := h₁.input
            obtain ⟨x, hx, hxD⟩ := hs (Lines.bytes ends) (q ++ inq.take j) (inq.drop j) hsent (by simp; omega)
            exact hno x hx hxD
          rw [hje, List.take_length] at hno
          exact hno
      · right
        have : 0 < p.length := List.length_pos_iff.mpr hp
        simp only [List.length_drop]
        omega
  · obtain ⟨s₃, room₃, e₃, h₃⟩ := h₂.push (b := b) (M := M) hP hfm
    obtain ⟨s₄, room₄, e₄, hpos₄, h₄⟩ := h₃.drain (b := b) (M := M) (fuel := fuel) hX
    refine ⟨s₄, { g with lines := g.lines ++ [line], written := g.written ++ f line, received := g.received ++ ([] ++ (p ++ f line).take room) }, _, _, _, room₄,
      by simp [round, run, e₁, e₂, e₃, e₄], rfl, hpos₄, h₄, ?_, ?_⟩
    · rintro ⟨rfl, hno⟩
      obtain ⟨d, hd, he, -⟩ := hf
      exact absurd hd (hno d (by rw [← hqi, he]; simp))
    · right
      obtain ⟨d, hd, he, -⟩ := hf
      have hl := hM line
      have hlen : (rest ++ inq.drop j).length + 1 ≤ (q ++ inq).length := by
        rw [← hqi, he]; simp
      have := Nat.mul_le_mul_left (M + 2) hlen
      rw [Nat.mul_add] at this
      simp only [List.length_drop, List.length_append] at this ⊢
      omega
  · exact absurd (hal hv) hna

/-- Rounds go on until everything is done. -/
theorem rounds (hP : P.Lossless R a) (hfa : a < fuel) (hfm : m < fuel) (hM : ∀ l, (f l).length ≤ M) (hMm : M < m)
    {k : Nat} (hX : Drains P R k) (how : How) (hr : Roomy n (.serve how)) (D : List Byte) :
    ∀ (N : Nat) {s : BufStream σ} {g : Device.Log} {q p inq : List Byte} {room : Nat},
    Served R D n m f s g q p inq [] room → 0 < room → Lines.Short D n g.sent →
    (how = .view → Lines.Aligned D n g.sent) →
    ((p = [] ∧ Lines.NoLine D (q ++ inq)) ∨ (M + 2) * (q ++ inq).length + p.length ≤ N) →
    ∃ s' g' q' inq' room', run P b f M fuel s g (List.replicate N (round how k)).flatten = .ok (g', s') ∧ g'.sent = g.sent ∧
      Served R D n m f s' g' q' [] inq' [] room' ∧ Lines.NoLine D (q' ++ inq')
  | 0, s, g, q, p, inq, room, h, hpos, hs, hal, hd => by
    have : p = [] ∧ Lines.NoLine D (q ++ inq) := by
      rcases hd with hd | hd
      · exact hd
      · have h1 : (M + 2) * (q ++ inq).length = 0 := by omega
        have h2 : (q ++ inq).length = 0 := by
          rcases Nat.mul_eq_zero.mp h1 with h | h <;> omega
        refine ⟨List.length_eq_zero_iff.mp (by omega), ?_⟩
        rw [List.length_eq_zero_iff.mp h2]
        intro c hc; cases hc
    obtain ⟨rfl, hno⟩ := this
    exact ⟨s, g, q, inq, room, rfl, rfl, h, hno⟩
  | N + 1, s, g, q, p, inq, room, h, hpos, hs, hal, hd => by
    obtain ⟨s₁, g₁, q₁, p₁, inq₁, room₁, e₁, hsent, hpos₁, h₁, hk, hdec⟩ :=
      round_step (b := b) hP hfa hfm hM hMm hX how hr h hpos hs hal
    obtain ⟨s', g', q', inq', room', e', hsent', h', hno⟩ := rounds hP hfa hfm hM hMm hX how hr D N h₁ hpos₁
      (hsent ▸ hs) (fun hv => hsent ▸ hal hv) (by
        rcases hd with hd | hd
        · exact .inl (hk hd)
        · rcases hdec with hdec | hdec
          · exact .inl hdec
          · exact .inr (by omega))
    refine ⟨s', g', q', inq', room', ?_, hsent'.trans hsent, h', hno⟩
    rw [List.replicate_succ, List.flatten_cons, run_append, e₁, res_bind_ok]
    exact e'

end

theorem mock_drains (a b : Nat) (hb : 0 < b) (k : Nat) : Drains Mock.port (Mock.State a b) k := by
  intro s inq outq room h
  obtain ⟨m', e, hm'⟩ := h.extract
  exact ⟨m', b, e, hm', hb⟩

theorem serial_drains (a b : Nat) (hb : 0 < b) : Drains Serial.port (Serial.State a b) b := by
  intro s inq outq room h
  obtain ⟨gone, rest, s', room', e, he, h'⟩ := (Serial.lossless a b).extract b h
  obtain ⟨h1, h2, h3, h4, h5, h6⟩ := h
  have hd : s.tx.drop b = [] := List.drop_eq_nil_of_le (by omega)
  have ht : s.tx.take b = s.tx := List.take_of_length_le (by omega)
  refine ⟨{ s with tx := [], wire := [] }, b, ?_, ⟨h1, rfl, h3, h4, h5, by simp⟩, hb⟩
  simp [Serial.port, Serial.extract, hd, ht, ← h2]

end Server

open Server

variable {σ : Type} {P : Port σ} {R : σ → List Byte → List Byte → Nat → Prop} {a : Nat}

/-- **C159**, any requests. A command server on any port that keeps its promises, in debug and release builds, with replies of at most `M` bytes, over any history in which
bytes arrive and leave and the application receives, serves and sends: the history runs to its end, and then what the remote side received, what is in the port and what is
in the output buffer are the replies to the requests served, in order and whole; the requests served, each with a delimiter, the input buffer and the port hold a subsequence
of what the remote side sent, and the number of missing bytes is the number of bytes overwritten. Or the program reads beyond the storage of the input buffer: with
`Transaction::incoming()`, of a request that runs over the end of the storage. Missing: that the latter does not happen, see `C159_straddles_counterexample`. -/
theorem C159_server_partial (hP : P.Lossless R a) {st : σ} {room : Nat} (hR : R st [] [] room) (bld : Build) (n m : Nat) (hn : 0 < n) (hm : 0 < m) (D : List Byte)
    (f : List Byte → List Byte) (M : Nat) (hM : ∀ l, (f l).length ≤ M) (fuel : Nat) (hfa : a < fuel) (hfm : m < fuel) (ops : List Server.Op) (hr : ∀ op ∈ ops, Roomy n op) :
    ∃ s₀, BufStream.create bld st n m D = .ok s₀ ∧
      ((∃ s g q p inq outq room', Server.run P bld f M fuel s₀ ⟨[], [], [], [], 0⟩ ops = .ok (g, s) ∧
        s.input.Holds q ∧ s.output.Holds p ∧ R s.stream inq outq room' ∧ g.received ++ outq ++ p = g.lines.flatMap f ∧
        ∃ ends : List (List Byte × Byte), ends.map Prod.fst = g.lines ∧ (∀ e ∈ ends, e.2 ∈ D) ∧
          ((ends.flatMap fun e => e.1 ++ [e.2]) ++ q ++ inq).Sublist g.sent ∧
          g.sent.length = ((ends.flatMap fun e => e.1 ++ [e.2]) ++ q ++ inq).length + g.lost) ∨
      (Server.run P bld f M fuel s₀ ⟨[], [], [], [], 0⟩ ops = .error .ub ∧ ∃ ops₁ ops₂ g₁ s₁, ops = ops₁ ++ .serve .view :: ops₂ ∧
        Server.run P bld f M fuel s₀ ⟨[], [], [], [], 0⟩ ops₁ = .ok (g₁, s₁) ∧ Straddles D n s₁)) := by
  obtain ⟨s₀, e₀, h₀⟩ := Device.fresh_ok bld n m hn hm D False hR
  refine ⟨s₀, e₀, ?_⟩
  rcases run_induct (P := P) (b := bld) (f := f) (M := M) (fuel := fuel) (D := D) (n := n) (Loose R D n m f) (fun _ => True)
    (fun s g op h _ hr => loose_step hP hfa hfm hM s g op h hr) ops ⟨[], [], [], [], h₀, rfl⟩ hr (fun _ _ _ _ _ => trivial) with
    ⟨s, g, e, q, p, inq, outq, h, hw⟩ | hub
  · obtain ⟨ends, h1, h2, h3, h4⟩ := h.input
    obtain ⟨room', hR'⟩ := h.port
    refine .inl ⟨s, g, q, p, inq, outq, room', e, h.inv.input.1.holds, h.inv.output.holds, hR', ?_, ends, h1, h2, ?_, ?_⟩
    · rw [← hw, h.output]; simp
    · rw [List.append_assoc]; exact h3
    · rw [List.append_assoc]; exact h4
  · exact .inr hub

/-- **C159**, requests that fit. If every request is shorter than the input buffer, and requests are copied (`get_next_line`) or no request runs over a multiple of the size
of the input buffer, counted from the first byte sent, then every history runs to its end without undefined behaviour, no request is lost however long the application
does not look, the requests served are the first requests sent, and what the remote side receives is their replies, in order and whole. -/
theorem C159_server (hP : P.Lossless R a) {st : σ} {room : Nat} (hR : R st [] [] room) (bld : Build) (n m : Nat) (hn : 0 < n) (hm : 0 < m) (D : List Byte)
    (f : List Byte → List Byte) (M : Nat) (hM : ∀ l, (f l).length ≤ M) (fuel : Nat) (hfa : a < fuel) (hfm : m < fuel) (ops : List Server.Op) (hr : ∀ op ∈ ops, Roomy n op)
    (s₀ : BufStream σ) (e₀ : BufStream.create bld st n m D = .ok s₀)
    (hs : ∀ ops₁ g₁ s₁, ops₁ <+: ops → Server.run P bld f M fuel s₀ ⟨[], [], [], [], 0⟩ ops₁ = .ok (g₁, s₁) →
      Lines.Short D n g₁.sent ∧ (.serve .view ∈ ops → Lines.Aligned D n g₁.sent)) :
    ∃ s g q p inq outq room', Server.run P bld f M fuel s₀ ⟨[], [], [], [], 0⟩ ops = .ok (g, s) ∧
      s.input.Holds q ∧ s.output.Holds p ∧ R s.stream inq outq room' ∧ g.received ++ outq ++ p = g.lines.flatMap f ∧
      ∀ left tail, Lines.Split D (q ++ inq) left tail → Lines.Split D g.sent (g.lines ++ left) tail := by
  obtain ⟨s₁, e₁, h₀⟩ := fresh_served bld hn hm D f hR
  rw [e₁] at e₀
  cases e₀
  rcases run_induct (P := P) (b := bld) (f := f) (M := M) (fuel := fuel) (D := D) (n := n)
    (fun s g => ∃ q p inq outq room, Served R D n m f s g q p inq outq room)
    (fun g => Lines.Short D n g.sent)
    (fun s g op h hy hr => by
      rcases served_step (b := bld) hP hfa hfm hM s g op h hy hr with ⟨s', g', e, h'⟩ | ⟨e1, e2, e3, -⟩
      · exact .inl ⟨s', g', e, fun _ => h'⟩
      · exact .inr ⟨e1, e2, e3⟩) ops ⟨[], [], [], [], room, h₀⟩ hr
    (fun ops₁ g₁ s₁ hp e => (hs ops₁ g₁ s₁ hp e).1) with ⟨s, g, e, q, p, inq, outq, room', h⟩ | ⟨-, ops₁, ops₂, g₁, s₂, ho, e, hst⟩
  · obtain ⟨h1, h2, h3, h4, h5⟩ := h.seen
    exact ⟨s, g, q, p, inq, outq, room', e, h1, h2, h3, h4, h5⟩
  · -- the history up to there
    exfalso
    rcases run_induct (P := P) (b := bld) (f := f) (M := M) (fuel := fuel) (D := D) (n := n)
      (fun s g => ∃ q p inq outq room, Served R D n m f s g q p inq outq room) (fun g => Lines.Short D n g.sent)
      (fun s g op h hy hr => by
        rcases served_step (b := bld) hP hfa hfm hM s g op h hy hr with ⟨s', g', e, h'⟩ | ⟨e1, e2, e3, -⟩
        · exact .inl ⟨s', g', e, fun _ => h'⟩
        · exact .inr ⟨e1, e2, e3⟩) ops₁ ⟨[], [], [], [], room, h₀⟩ (fun op hop => hr op (by simp [ho, hop]))
      (fun ops₃ g₃ s₃ hp e => (hs ops₃ g₃ s₃ (hp.trans (by simp [ho])) e).1) with ⟨s', g', e', q, p, inq, outq, room', h⟩ | ⟨e', -⟩
    · rw [e] at e'
      cases e'
      obtain ⟨q', line, d, rest, hq, he, hd, hl, hlt⟩ := hst
      have : q' = q := hq.unique h.inv.input.1.holds
      subst this
      obtain ⟨ends, h1, h2, h3, h4⟩ := h.input
      have := (hs ops₁ _ _ (by simp [ho]) e).2 (by simp [ho]) (Lines.bytes ends) line d (rest ++ inq) (by simp [h3, he])
        (bytes_boundary h2) hl hd
      omega
    · rw [e] at e'; cases e'

/-- **C159**, requests of one length: the same holds if all requests have `k` bytes and the size of the input buffer is a multiple of `k + 1`. -/
theorem C159_fixed (hP : P.Lossless R a) {st : σ} {room : Nat} (hR : R st [] [] room) (bld : Build) (n m k : Nat) (hn : 0 < n) (hk : (k + 1) ∣ n) (hm : 0 < m) (D : List Byte)
    (f : List Byte → List Byte) (M : Nat) (hM : ∀ l, (f l).length ≤ M) (fuel : Nat) (hfa : a < fuel) (hfm : m < fuel) (ops : List Server.Op) (hr : ∀ op ∈ ops, Roomy n op)
    (s₀ : BufStream σ) (e₀ : BufStream.create bld st n m D = .ok s₀)
    (hs : ∀ ops₁ g₁ s₁, ops₁ <+: ops → Server.run P bld f M fuel s₀ ⟨[], [], [], [], 0⟩ ops₁ = .ok (g₁, s₁) → Lines.Framed D k g₁.sent) :
    ∃ s g q p inq outq room', Server.run P bld f M fuel s₀ ⟨[], [], [], [], 0⟩ ops = .ok (g, s) ∧
      s.input.Holds q ∧ s.output.Holds p ∧ R s.stream inq outq room' ∧ g.received ++ outq ++ p = g.lines.flatMap f ∧
      ∀ left tail, Lines.Split D (q ++ inq) left tail → Lines.Split D g.sent (g.lines ++ left) tail :=
  C159_server hP hR bld n m hn hm D f M hM fuel hfa hfm ops hr s₀ e₀ fun ops₁ g₁ s₁ hp e =>
    ⟨(framed_aligned hk hn (hs ops₁ g₁ s₁ hp e)).1, fun _ => (framed_aligned hk hn (hs ops₁ g₁ s₁ hp e)).2⟩

/-- **C159**, everything is answered. Under the conditions of `C159_server`, and if the output buffer is larger than the largest reply: after any history, once the remote side
sends nothing more and listens, `(M + 2) * (n + a) + m` rounds of the application's loop suffice to serve every request that was sent and to deliver every reply. -/
theorem C159_answered (hP : P.Lossless R a) {st : σ} {room : Nat} (hR : R st [] [] room) (bld : Build) (n m : Nat) (hn : 0 < n) (D : List Byte)
    (f : List Byte → List Byte) (M : Nat) (hM : ∀ l, (f l).length ≤ M) (hMm : M < m) (fuel : Nat) (hfa : a < fuel) (hfm : m < fuel) {k : Nat} (hX : Drains P R k)
    (ops : List Server.Op) (hr : ∀ op ∈ ops, Roomy n op) (how : How) (hrh : Roomy n (.serve how)) (s₀ : BufStream σ) (e₀ : BufStream.create bld st n m D = .ok s₀)
    (hs : ∀ ops₁ g₁ s₁, ops₁ <+: ops → Server.run P bld f M fuel s₀ ⟨[], [], [], [], 0⟩ ops₁ = .ok (g₁, s₁) →
      Lines.Short D n g₁.sent ∧ (.serve .view ∈ ops ∨ how = .view → Lines.Aligned D n g₁.sent))
    (N : Nat) (hN : (M + 2) * (n + a) + m ≤ N) :
    ∃ s g tail, Server.run P bld f M fuel s₀ ⟨[], [], [], [], 0⟩ (ops ++ .extract k :: (List.replicate N (Server.round how k)).flatten) = .ok (g, s) ∧
      Lines.Split D g.sent g.lines tail ∧ g.received = g.lines.flatMap f := by
  obtain ⟨s₁, e₁, h₀⟩ := fresh_served bld hn (show 0 < m by omega) D f hR
  obtain ⟨s, g, q, p, inq, outq, room', e, -⟩ := C159_server hP hR bld n m hn (by omega) D f M hM fuel hfa hfm ops hr s₀ e₀
    (fun ops₁ g₁ s₁ hp e => ⟨(hs ops₁ g₁ s₁ hp e).1, fun hv => (hs ops₁ g₁ s₁ hp e).2 (.inl hv)⟩)
  rw [e₁] at e₀
  cases e₀
  rcases run_induct (P := P) (b := bld) (f := f) (M := M) (fuel := fuel) (D := D) (n := n)
    (fun s g => ∃ q p inq outq room, Served R D n m f s g q p inq outq room)
    (fun g => Lines.Short D n g.sent)
    (fun s g op h hy hr => by
      rcases served_step (b := bld) hP hfa hfm hM s g op h hy hr with ⟨s', g', e, h'⟩ | ⟨e1, e2, e3, -⟩
      · exact .inl ⟨s', g', e, fun _ => h'⟩
      · exact .inr ⟨e1, e2, e3⟩) ops ⟨[], [], [], [], room, h₀⟩ hr
    (fun ops₁ g₁ s₁ hp e => (hs ops₁ g₁ s₁ hp e).1) with ⟨s', g', e', q, p, inq, outq, room', h⟩ | ⟨e', -⟩
  · rw [e] at e'
    cases e'
    obtain ⟨hsh, hal⟩ := hs ops g s (List.prefix_refl _) e
    obtain ⟨s₂, room₂, e₂, hpos, h₂⟩ := h.drain (b := bld) (M := M) (fuel := fuel) hX
    obtain ⟨s₃, g₃, q₃, inq₃, room₃, e₃, hsent, h₃, hno⟩ := rounds (b := bld) hP hfa hfm hM hMm hX how hrh D N h₂ hpos hsh
      (fun hv => hal (.inr hv)) (.inr (by
        have h1 := h.inv.input.1.qle
        have h2 := h.inv.output.qle
        have h3 := hP.bound h.port
        have h4 : (M + 2) * (q ++ inq).length ≤ (M + 2) * (n + a) := Nat.mul_le_mul_left _ (by simp; omega)
        omega))
    obtain ⟨-, -, -, h4, h5⟩ := h₃.seen
    refine ⟨s₃, g₃, q₃ ++ inq₃, ?_, ?_, by simpa using h4⟩
    · rw [run_append, e, res_bind_ok]
      simp only [Server.run, e₂, res_bind_ok]
      exact e₃
    · have := h5 [] _ (.done hno)
      simpa using this
  · rw [e] at e'; cases e'

/-- The code violates C159 in general: whatever is sent, once a request that runs over the end of the storage is the next one and there is room for a reply, the server reads
beyond the storage. It happens with an input buffer of 8 bytes and two requests of 4 bytes. -/
theorem C159_straddles_counterexample (bld : Build) (s : BufStream σ) (n m M : Nat) (hn : 0 < n) (hm : 0 < m) (D : List Byte) (hd : s.input.delims = D)
    (hre : Reachable P.stream n m s) (f : List Byte → List Byte) (g : Device.Log) (hroom : M < s.output.ring.freeSpace) (hs : Straddles D n s) :
    Server.serve bld f M s g .view = .error .ub := by
  obtain ⟨q, p, hi⟩ := hre.inv hn hm
  obtain ⟨q', line, d, rest, hq, he, hdD, hl, hlt⟩ := hs
  have : q' = q := hq.unique hi.input.1.holds
  subst this
  refine serve_straddles hi g (by rwa [hi.output.free] at hroom) ⟨d, hd ▸ hdD, he, hd ▸ hl⟩ hlt

/-- An echo server with an input buffer of 8 bytes. With two requests of 4 bytes, the second one runs over the end. -/
example : ∃ s₀, BufStream.create .debug (Serial.create 64 4) 8 8 [10] = .ok s₀ ∧
    Server.run Serial.port .debug (· ++ [33]) 6 70 s₀ ⟨[], [], [], [], 0⟩ [.inject [97, 98, 99, 100, 10, 101, 102, 103, 104, 10], .pull, .serve .view, .push, .extract 8, .push,
      .pull, .serve .view] = .error .ub :=
  ⟨_, rfl, rfl⟩

/-- With requests of 3 bytes, all is well, and the replies are delivered in pieces. -/
example : ∃ s₀, BufStream.create .debug (Serial.create 64 4) 8 8 [10] = .ok s₀ ∧
    (Server.run Serial.port .debug (· ++ [33]) 6 70 s₀ ⟨[], [], [], [], 0⟩ [.inject [97, 98, 99, 10, 101, 102, 103, 10, 104, 105], .pull, .serve .view, .serve .view, .push, .extract 3,
      .push, .serve .view, .pull, .inject [106, 10], .pull, .serve .view]).map (fun x => (x.1.lines, x.1.received)) =
      .ok ([[97, 98, 99], [101, 102, 103]], [97, 98, 99]) :=
  ⟨_, rfl, rfl⟩

/-- Requests of 3 bytes are `Framed`, for the hypothesis of `C159_fixed`. -/
example : Lines.Framed [10] 3 [97, 98, 99, 10, 101, 102, 103, 10, 104, 105] ∧ ¬ Lines.Framed [10] 3 [97, 98, 10] :=
  ⟨by unfold Lines.Framed; decide, by unfold Lines.Framed; decide⟩

/-- With copies the two requests of 4 bytes are served. -/
example : ∃ s₀, BufStream.create .debug (Serial.create 64 4) 8 8 [10] = .ok s₀ ∧
    (Server.run Serial.port .debug (· ++ [33]) 6 70 s₀ ⟨[], [], [], [], 0⟩ [.inject [97, 98, 99, 100, 10, 101, 102, 103, 104, 10], .pull, .serve (.copy (List.replicate 9 0) 9),
      .push, .extract 8, .push, .extract 8, .pull, .serve (.copy (List.replicate 9 0) 9), .push, .extract 8, .push, .extract 8]).map (fun x => (x.1.lines, x.1.received)) =
      .ok ([[97, 98, 99, 100], [101, 102, 103, 104]], [97, 98, 99, 100, 33, 101, 102, 103, 104, 33]) :=
  ⟨_, rfl, rfl⟩

/-- The conditions of `C159_answered` can be met: three requests arrive at once at a serial port with a send buffer of 4 bytes. -/
example : ∃ s₀ s g tail, BufStream.create .debug (Serial.create 64 4) 8 8 [10] = .ok s₀ ∧
    Server.run Serial.port .debug (fun l => l.take 6 ++ [33]) 7 70 s₀ ⟨[], [], [], [], 0⟩ ([.inject [97, 98, 99, 10, 101, 102, 103, 10, 104, 105, 106, 10]] ++
      .extract 4 :: (List.replicate 656 (Server.round .view 4)).flatten) = .ok (g, s) ∧
    Lines.Split [10] g.sent g.lines tail ∧ g.received = g.lines.flatMap (fun l => l.take 6 ++ [33]) := by
  have hR : Serial.State 64 4 (Serial.create 64 4) [] [] 4 := ⟨rfl, rfl, rfl, rfl, by simp [Serial.create], rfl⟩
  obtain ⟨s₀, e₀, -⟩ := fresh_served .debug (n := 8) (m := 8) (by omega) (by omega) [10] (fun l => l) hR
  have key := C159_answered (Serial.lossless 64 4) hR .debug 8 8 (by omega) [10] (fun l => l.take 6 ++ [33]) 7 (by intro l; simp; omega) (by omega) 70 (by omega) (by omega)
    (serial_drains 64 4 (by omega)) [.inject [97, 98, 99, 10, 101, 102, 103, 10, 104, 105, 106, 10]] (by simp [Roomy]) .view (by simp [Roomy]) s₀ e₀ ?_ 656 (by omega)
  · obtain ⟨s, g, tail, h⟩ := key
    exact ⟨s₀, s, g, tail, e₀, h⟩
  · have fr : ∀ xs : List Byte, Lines.Framed [10] 3 xs → Lines.Short [10] 8 xs ∧ Lines.Aligned [10] 8 xs := fun xs h =>
      framed_aligned (by decide) (by omega) h
    intro ops₁ g₁ s₁ hp e
    have hst : s₀.stream = Serial.create 64 4 := by
      have := create_inv (n := 8) (m := 8) (by omega) (by omega) .debug (Serial.create 64 4) [10]
      obtain ⟨s', es, -, hst, -⟩ := this
      rw [e₀] at es; cases es; exact hst
    have hfr : Lines.Framed [10] 3 g₁.sent := by
      rcases ops₁ with _ | ⟨o, os⟩
      · cases e; intro i hi; simp at hi
      · obtain ⟨rfl, hos⟩ := List.cons_prefix_cons.mp hp
        obtain rfl := List.prefix_nil.mp hos
        simp [Server.run, Server.step, Device.step, Serial.port, Serial.inject, hst, Serial.create] at e
        obtain ⟨rfl, -⟩ := e
        unfold Lines.Framed; decide
    exact ⟨(fr _ hfr).1, fun _ => (fr _ hfr).2⟩

end Spine

import Mathlib.Tactic.ByContra
import Verif.Proofs.LineBuffer
import Verif.Spec.Streams
/-!
# Lemmas about the stream models
-/

namespace Spine

open Ring

theorem Queue.newest_of_le {α : Type} {n : Nat} {q : List α} (h : q.length ≤ n) : Queue.newest n q = q := by
  simp [Queue.newest, Nat.sub_eq_zero_of_le h]

theorem Queue.newest_length {α : Type} {n : Nat} {q : List α} (h : n ≤ q.length) : (Queue.newest n q).length = n := by
  simp [Queue.newest]; omega

/-- A ring buffer on which nothing has been dropped: elements have been overwritten since the last pop only
if it is still full. -/
def Ring.Tight {α : Type} (n : Nat) (r : Ring α) (q : List α) : Prop :=
  Rep n r q ∧ (r.overwritten ≠ 0 → q.length = n)

theorem Ring.Tight.pop {α : Type} {n : Nat} {r : Ring α} {q : List α} (h : Tight n r q) :
    ∃ v r' q', r.pop = .ok (v, r') ∧ Tight n r' q' := by
  cases q with
  | nil => exact ⟨none, r, [], h.1.pop_none, h⟩
  | cons v q =>
    obtain ⟨r', e, h', o⟩ := h.1.pop_some
    exact ⟨_, r', q, e, h', by simp [o]⟩

theorem Ring.Tight.push {α : Type} {n : Nat} {r : Ring α} {q : List α} (h : Tight n r q) (v : α) :
    ∃ r' q', r.push v true = .ok (true, r') ∧ Tight n r' q' := by
  by_cases hq : q.length < n
  · obtain ⟨r', e, h', o⟩ := h.1.push_space v true hq
    exact ⟨r', _, e, h', by rw [o]; intro h0; have := h.2 h0; omega⟩
  · have hq : q.length = n := by have := h.1.qle; omega
    obtain ⟨r', e, h', o⟩ := h.1.push_rollover v hq
    exact ⟨r', _, e, h', by intro _; have := h.1.pos; simp [hq]; omega⟩

theorem Ring.Tight.popLoop {n : Nat} : ∀ (k : Nat) {r : Ring Byte} {q : List Byte} (dst : List Byte) (i : Nat),
    Tight n r q → ∀ {x}, r.popLoop dst i k = .ok x → ∃ q', Tight n x.2 q'
  | 0, r, q, dst, i, h, x, e => by simp only [Ring.popLoop] at e; cases e; exact ⟨q, h⟩
  | k + 1, r, q, dst, i, h, x, e => by
    obtain ⟨v, r₁, q₁, e₁, h₁⟩ := h.pop
    simp only [Ring.popLoop, e₁, res_bind_ok] at e
    cases v with
    | none => exact popLoop k dst (i + 1) h₁ (by simpa using e)
    | some v =>
      cases hw : wr dst i v with
      | error f => simp [hw] at e
      | ok d =>
        simp only [hw, res_bind_ok] at e
        exact popLoop k d (i + 1) h₁ e

theorem Ring.Tight.dropLoop {n : Nat} : ∀ (k : Nat) {r : Ring Byte} {q : List Byte}, Tight n r q →
    ∃ r' q', LineBuf.dropLoop r k = .ok r' ∧ Tight n r' q'
  | 0, r, q, h => ⟨r, q, rfl, h⟩
  | k + 1, r, q, h => by
    obtain ⟨v, r₁, q₁, e₁, h₁⟩ := h.pop
    obtain ⟨r₂, q₂, e₂, h₂⟩ := dropLoop k h₁
    exact ⟨r₂, q₂, by simp [LineBuf.dropLoop, e₁, e₂], h₂⟩

namespace BufStream

variable {σ : Type} {S : Stream σ}

/-- The invariant of a buffered stream. -/
structure Inv (n m : Nat) (s : BufStream σ) (q p : List Byte) : Prop where
  input : Tight n s.input.ring q
  output : Rep m s.output.ring p

theorem hasLine_ok {n : Nat} {l : LineBuf} {q : List Byte} (h : Rep n l.ring q) : ∃ x, l.hasLine = .ok x := by
  obtain ⟨k, e⟩ := LineBuf.length_any h
  exact ⟨_, by simp [LineBuf.hasLine, e]; rfl⟩

theorem pullStop_ok {n : Nat} {s : BufStream σ} {q : List Byte} (h : Rep n s.input.ring q) (c : Byte) :
    ∃ x, s.pullStop c = .ok x := by
  obtain ⟨x, e⟩ := hasLine_ok h
  unfold pullStop
  repeat' split
  all_goals first | exact ⟨_, e⟩ | exact ⟨_, rfl⟩

theorem hasLine_eq {n : Nat} {l : LineBuf} {q : List Byte} (h : Rep n l.ring q) {x : Bool}
    (e : l.hasLine = .ok x) : x = true ↔ ¬ Lines.NoLine l.delims q := by
  rcases Lines.first_or_none l.delims q with hn | ⟨line, rest, hf⟩
  · simp [LineBuf.hasLine, LineBuf.length_none h hn] at e
    simp [hn, ← e]
  · simp [LineBuf.hasLine, LineBuf.length_first h hf] at e
    simp [hf.not_noLine, ← e]

theorem isDelim_iff {l : LineBuf} {c : Byte} : l.isDelim c = true ↔ c ∈ l.delims := by
  simp [LineBuf.isDelim]

/-- When the loop stops early. -/
theorem pullStop_iff {n : Nat} {s : BufStream σ} {q : List Byte} (h : Rep n s.input.ring q) {c : Byte} {x : Bool}
    (e : s.pullStop c = .ok x) :
    x = true ↔ q.length = n ∧ (c ∈ s.input.delims ∨
      (s.input.ring.overrunSpace = 0 ∧ ¬ Lines.NoLine s.input.delims q)) := by
  unfold pullStop at e
  rw [h.fullEq] at e
  by_cases hq : q.length = n
  · simp only [hq, decide_true, if_true] at e
    by_cases hc : c ∈ s.input.delims
    · rw [if_pos (isDelim_iff.mpr hc)] at e
      cases e; simp [hq, hc]
    · rw [if_neg (by simp [isDelim_iff, hc])] at e
      by_cases ho : s.input.ring.overrunSpace = 0
      · rw [if_pos ho] at e
        rw [hasLine_eq h e]
        simp [hq, hc, ho]
      · rw [if_neg ho] at e
        cases e; simp [hc, ho]
  · simp only [hq, decide_false, Bool.false_eq_true, if_false] at e
    cases e; simp [hq]

theorem pullLoop_inv {n m : Nat} : ∀ (fuel : Nat) {s : BufStream σ} {q p : List Byte} (c : Byte) (k : Nat),
    Inv n m s q p → ∀ {x}, s.pullLoop S fuel c k = .ok x → ∃ q', Inv n m x.2 q' p
  | 0, s, q, p, c, k, h, x, e => by cases e
  | fuel + 1, s, q, p, c, k, h, x, e => by
    unfold pullLoop at e
    split at e
    · cases e; exact ⟨q, h⟩
    · obtain ⟨b, eb⟩ := pullStop_ok h.input.1 c
      simp only [eb, res_bind_ok] at e
      cases b with
      | true => cases e; exact ⟨q, h⟩
      | false =>
        cases hr : S.read s.stream with
        | error f => simp [hr] at e
        | ok y =>
          obtain ⟨v, st⟩ := y
          simp only [hr, res_bind_ok, res_pure] at e
          cases v with
          | none => cases e; exact ⟨q, h.input, h.output⟩
          | some v =>
            obtain ⟨r', q', ep, h'⟩ := h.input.push v
            simp only [ep, res_bind_ok] at e
            exact pullLoop_inv fuel (s := ⟨⟨r', s.input.delims⟩, s.output, st⟩) v (k + 1) ⟨h', h.output⟩ e

theorem pushLoop_inv {n m : Nat} : ∀ (fuel : Nat) {s : BufStream σ} {q p : List Byte} (k : Nat),
    Inv n m s q p → ∀ {x}, s.pushLoop S fuel k = .ok x → ∃ p', Inv n m x.2 q p'
  | 0, s, q, p, k, h, x, e => by cases e
  | fuel + 1, s, q, p, k, h, x, e => by
    unfold pushLoop at e
    split at e
    · cases e; exact ⟨p, h⟩
    · obtain ⟨v, r', p', ep, h'⟩ := LineBuf.pop_any h.output
      simp only [ep, res_bind_ok] at e
      cases v with
      | none => cases e; exact ⟨p', h.input, h'⟩
      | some v =>
        cases hr : S.write s.stream v with
        | error f => simp [hr] at e
        | ok y =>
          obtain ⟨d, st⟩ := y
          simp only [hr, res_bind_ok] at e
          cases d with
          | false => cases e; exact ⟨p', h.input, h'⟩
          | true => exact pushLoop_inv fuel (s := ⟨s.input, ⟨r', s.output.delims⟩, st⟩) (k + 1) ⟨h.input, h'⟩ e

theorem step_inv {n m : Nat} {s s' : BufStream σ} {q p : List Byte} (h : Inv n m s q p) (op : Op σ)
    (e : s.step S op = .ok s') : ∃ q' p', Inv n m s' q' p' := by
  cases op with
  | env st => cases e; exact ⟨q, p, h.input, h.output⟩
  | pull fuel =>
    unfold step at e
    cases hp : s.pullInData S fuel with
    | error f => simp [hp] at e
    | ok x =>
      simp only [hp, res_bind_ok, res_pure] at e
      cases e
      obtain ⟨q', h'⟩ := pullLoop_inv fuel 0 0 h hp
      exact ⟨q', p, h'⟩
  | push fuel =>
    unfold step at e
    cases hp : s.pushOutData S fuel with
    | error f => simp [hp] at e
    | ok x =>
      simp only [hp, res_bind_ok, res_pure] at e
      cases e
      obtain ⟨q', h'⟩ := pushLoop_inv fuel 0 h hp
      exact ⟨q, q', h'⟩
  | write v ro =>
    unfold step bufferedWrite at e
    cases hp : s.output.ring.push v ro with
    | error f => simp [hp] at e
    | ok x =>
      simp only [hp, res_bind_ok, res_pure] at e
      cases e
      obtain ⟨p', h'⟩ := h.output.step_any (.push v ro) (by simp [Ring.step, hp]; exact ⟨rfl, rfl⟩)
      exact ⟨q, p', h.input, h'⟩
  | writeMany vs ro =>
    unfold step bufferedWriteMany at e
    cases hp : s.output.ring.pushMany vs ro with
    | error f => simp [hp] at e
    | ok x =>
      simp only [hp, res_bind_ok, res_pure] at e
      cases e
      obtain ⟨p', h'⟩ := h.output.step_any (.pushMany vs ro) (by simp [Ring.step, hp]; exact ⟨rfl, rfl⟩)
      exact ⟨q, p', h.input, h'⟩
  | outputDropLast k =>
    unfold step outputDropLast at e
    cases hp : s.output.ring.dropLast k with
    | error f => simp [hp] at e
    | ok x =>
      simp only [hp, res_bind_ok, res_pure] at e
      cases e
      obtain ⟨p', h'⟩ := h.output.step_any (.dropLast k) (by simp [Ring.step, hp]; exact ⟨rfl, rfl⟩)
      exact ⟨q, p', h.input, h'⟩
  | outputDropFirst k =>
    unfold step outputDropFirst at e
    cases hp : s.output.ring.dropFirst k with
    | error f => simp [hp] at e
    | ok x =>
      simp only [hp, res_bind_ok, res_pure] at e
      cases e
      obtain ⟨p', h'⟩ := h.output.step_any (.dropFirst k) (by simp [Ring.step, hp]; exact ⟨rfl, rfl⟩)
      exact ⟨q, p', h.input, h'⟩
  | getNextLine dst mx d =>
    unfold step getNextLine LineBuf.getNextLine LineBuf.discovered at e
    obtain ⟨len, el⟩ := LineBuf.length_any h.input.1
    simp only [el, res_bind_ok, res_pure] at e
    split at e
    · cases e; exact ⟨q, p, h.input, h.output⟩
    · cases hl : s.input.ring.popLoop dst 0 (d.getD len - 1) with
      | error f => simp [hl] at e
      | ok x =>
        obtain ⟨q₁, h₁⟩ := h.input.popLoop _ dst 0 hl
        obtain ⟨v, r₂, q₂, e₂, h₂⟩ := h₁.pop
        simp only [hl, res_bind_ok, e₂] at e
        cases hw : wr x.1 (d.getD len - 1) 0 with
        | error f => simp [hw] at e
        | ok w =>
          simp only [hw, res_bind_ok] at e
          cases e
          exact ⟨q₂, p, h₂, h.output⟩
  | dropNextLine d =>
    unfold step dropNextLine LineBuf.dropNextLine LineBuf.discovered at e
    obtain ⟨len, el⟩ := LineBuf.length_any h.input.1
    simp only [el, res_bind_ok, res_pure] at e
    split at e
    · cases e; exact ⟨q, p, h.input, h.output⟩
    · obtain ⟨r₁, q₁, e₁, h₁⟩ := h.input.dropLoop (d.getD len - 1)
      obtain ⟨v, r₂, q₂, e₂, h₂⟩ := h₁.pop
      simp only [e₁, res_bind_ok, e₂] at e
      cases e
      exact ⟨q₂, p, h₂, h.output⟩

theorem run_inv {n m : Nat} : ∀ (ops : List (Op σ)) {s s' : BufStream σ} {q p : List Byte}, Inv n m s q p →
    s.run S ops = .ok s' → ∃ q' p', Inv n m s' q' p'
  | [], s, s', q, p, h, e => by cases e; exact ⟨q, p, h⟩
  | op :: ops, s, s', q, p, h, e => by
    unfold run at e
    cases hs : s.step S op with
    | error f => simp [hs] at e
    | ok s₁ =>
      simp only [hs, res_bind_ok] at e
      obtain ⟨q₁, p₁, h₁⟩ := step_inv h op hs
      exact run_inv ops h₁ e

theorem create_inv {n m : Nat} (hn : 0 < n) (hm : 0 < m) (b : Build) (stream : σ) (D : List Byte) :
    ∃ s, create b stream n m D = .ok s ∧ Inv n m s [] [] ∧ s.stream = stream ∧ s.input.delims = D ∧
      s.output.delims = D ∧ s.input.ring.overwritten = 0 := by
  obtain ⟨l₁, e₁, h₁, d₁, o₁⟩ := LineBuf.create_rep hn b D
  obtain ⟨l₂, e₂, h₂, d₂, -⟩ := LineBuf.create_rep hm b D
  exact ⟨⟨l₁, l₂, stream⟩, by simp [create, e₁, e₂], ⟨⟨h₁, by simp [o₁]⟩, h₂⟩, rfl, d₁, d₂, o₁⟩

theorem Reachable.inv {n m : Nat} {s : BufStream σ} (hn : 0 < n) (hm : 0 < m) (h : Reachable S n m s) :
    ∃ q p, Inv n m s q p := by
  obtain ⟨b, D, st, s₀, ops, e₀, e⟩ := h
  obtain ⟨s₁, e₁, h₁, -⟩ := create_inv hn hm b st D
  rw [e₀] at e₁
  cases e₁
  exact run_inv ops h₁ e

/-! ## `pull_in_data` -/

/-- The bytes lost when `x` bytes beyond the capacity have been pushed: the oldest ones. -/
theorem newest_split {n : Nat} (q : List Byte) : q.take (q.length - n) ++ Queue.newest n q = q :=
  List.take_append_drop _ _

theorem pullLoop_spec {R : σ → List Byte → List Byte → Nat → Prop} (hS : S.Lossless R) {n : Nat}
    {outq : List Byte} {room : Nat} :
    ∀ (fuel : Nat) {s : BufStream σ} {q inq : List Byte} (last : Byte) (cnt : Nat),
    Rep n s.input.ring q → R s.stream inq outq room → inq.length < fuel →
    ∃ k s', s.pullLoop S fuel last cnt = .ok (cnt + k, s') ∧ k ≤ inq.length ∧
      Rep n s'.input.ring (Queue.newest n (q ++ inq.take k)) ∧ s'.output = s.output ∧
      s'.input.delims = s.input.delims ∧ R s'.stream (inq.drop k) outq room ∧
      (k < inq.length → n ≤ q.length + k ∧
        (¬ Lines.NoLine s.input.delims (Queue.newest n (q ++ inq.take k)) ∨ (k = 0 ∧ last ∈ s.input.delims))) ∧
      ((s.input.ring.overwritten = 0 ∨ Lines.NoLine s.input.delims q ∨ last ∈ s.input.delims) →
       (s.input.ring.overwritten ≠ 0 → q.length = n) →
        Lines.NoLine s.input.delims ((q ++ inq.take k).take (q.length + k - n)) ∧
        (s'.input.ring.overwritten ≠ 0 → n ≤ q.length + k))
  | 0, s, q, inq, last, cnt, h, hR, hf => by omega
  | fuel + 1, s, q, inq, last, cnt, h, hR, hf => by
    have hqle := h.qle
    have hnew : Queue.newest n q = q := Queue.newest_of_le hqle
    unfold pullLoop
    cases inq with
    | nil =>
      have ha : S.available s.stream = 0 := (hS.available hR).mpr rfl
      refine ⟨0, s, by simp [ha], by simp, by simpa [hnew] using h, rfl, rfl, by simpa using hR,
        fun hlt => absurd hlt (by simp), ?_⟩
      intro _ ht
      refine ⟨by simp [Lines.NoLine, Nat.sub_eq_zero_of_le hqle], fun h0 => ?_⟩
      have := ht h0; omega
    | cons c inq =>
      have ha : ¬ S.available s.stream = 0 := fun h0 => by
        have := (hS.available hR).mp h0
        cases this
      rw [if_neg ha]
      obtain ⟨b, eb⟩ := pullStop_ok h last
      have hb := pullStop_iff h eb
      simp only [eb, res_bind_ok]
      cases b with
      | true =>
        obtain ⟨hfull, hwhy⟩ := hb.mp rfl
        refine ⟨0, s, by simp, by simp, by simpa [hnew] using h, rfl, rfl, by simpa using hR, ?_, ?_⟩
        · intro _
          refine ⟨by omega, ?_⟩
          simp only [List.take_zero, List.append_nil, hnew]
          rcases hwhy with hw | hw
          · exact .inr ⟨trivial, hw⟩
          · exact .inl hw.2
        · intro _ ht
          exact ⟨by simp [Lines.NoLine, Nat.sub_eq_zero_of_le hqle], fun h0 => by have := ht h0; omega⟩
      | false =>
        have hns : ¬ (q.length = n ∧ (last ∈ s.input.delims ∨
            (s.input.ring.overrunSpace = 0 ∧ ¬ Lines.NoLine s.input.delims q))) := fun hh => by
          have := hb.mpr hh; cases this
        obtain ⟨st, er, hR'⟩ := hS.read hR
        simp only [er, res_bind_ok, Bool.false_eq_true, if_false, res_pure]
        have hpush : ∃ r' q', s.input.ring.push c true = .ok (true, r') ∧ Rep n r' q' ∧
            q' = (if q.length < n then q ++ [c] else q.drop 1 ++ [c]) ∧
            (q.length < n → r'.overwritten = s.input.ring.overwritten) := by
          by_cases hq : q.length < n
          · obtain ⟨r', e, h', o⟩ := h.push_space c true hq
            exact ⟨r', _, e, h', by simp [hq], fun _ => o⟩
          · obtain ⟨r', e, h', o⟩ := h.push_rollover c (by omega)
            exact ⟨r', _, e, h', by simp [hq], fun hh => absurd hh hq⟩
        obtain ⟨r', q', ep, h', hq', ho⟩ := hpush
        simp only [ep, res_bind_ok]
        obtain ⟨k, s', e', hk, hrep, hout, hdel, hRk, hstop, hsafe⟩ :=
          pullLoop_spec hS fuel (s := { s with stream := st, input := { s.input with ring := r' } })
            (q := q') (inq := inq) c (cnt + 1) h' hR' (by simpa using hf)
        have hnp := newest_push n q c (inq.take k) h.pos hqle
        rw [← hq'] at hnp
        have hql : q'.length = if q.length < n then q.length + 1 else q.length := by
          rw [hq']; split <;> simp; have := h.pos; omega
        rw [hnp] at hrep hstop
        have hcm : c ∈ Queue.newest n (q ++ c :: inq.take 0) := by
          have : 0 < n := h.pos
          simp only [Queue.newest, List.take_zero]
          rw [List.drop_append]
          simp [show q.length + 1 - n - q.length = 0 by omega]
        refine ⟨k + 1, s', by rw [e']; congr 2; omega, by simpa using hk, by simpa using hrep, hout, hdel,
          by simpa using hRk, ?_, ?_⟩
        · intro hlt
          obtain ⟨h1, h2⟩ := hstop (by simpa using hlt)
          refine ⟨by split at hql <;> omega, .inl ?_⟩
          simp only [List.take_succ_cons]
          rcases h2 with h2 | ⟨rfl, h2⟩
          · exact h2
          · exact fun hno => hno c hcm h2
        · intro hj ht
          by_cases hq : q.length < n
          · have ho0 : s.input.ring.overwritten = 0 := by
              by_contra h0; have := ht h0; omega
            obtain ⟨s1, s2⟩ := hsafe (.inl (by rw [ho hq, ho0])) (by
              intro h0; rw [ho hq] at h0; exact absurd ho0 h0)
            rw [if_pos hq] at hq' hql
            refine ⟨?_, fun h0 => by have := s2 h0; omega⟩
            rw [hq'] at s1
            simp only [List.length_append, List.length_cons, List.length_nil] at s1
            simp only [List.take_succ_cons]
            have hx : q ++ [c] ++ inq.take k = q ++ c :: inq.take k := by simp
            rw [hx] at s1
            have hy : q.length + (0 + 1) + k - n = q.length + (k + 1) - n := by omega
            rw [hy] at s1
            exact s1
          · have hfull : q.length = n := by omega
            have hlast : last ∉ s.input.delims := fun hh => hns ⟨hfull, .inl hh⟩
            have hnl : Lines.NoLine s.input.delims q := by
              rcases hj with h0 | h0 | h0
              · by_contra hh; exact hns ⟨hfull, .inr ⟨h0, hh⟩⟩
              · exact h0
              · exact absurd h0 hlast
            rw [if_neg hq] at hq' hql
            have hj' : Lines.NoLine s.input.delims q' ∨ c ∈ s.input.delims := by
              by_cases hc : c ∈ s.input.delims
              · exact .inr hc
              · refine .inl ?_
                rw [hq']
                intro x hx
                rcases List.mem_append.mp hx with hx | hx
                · exact hnl x (List.mem_of_mem_drop hx)
                · simp at hx; rw [hx]; exact hc
            obtain ⟨s1, s2⟩ := hsafe (.inr hj') (by intro _; omega)
            refine ⟨?_, fun h0 => by have := s2 h0; omega⟩
            simp only [List.take_succ_cons]
            cases q with
            | nil => simp at hfull; have := h.pos; omega
            | cons a q =>
              have hz : (a :: q).length + (k + 1) - n = (q'.length + k - n) + 1 := by
                rw [hql]; omega
              rw [hz, List.cons_append, List.take_succ_cons]
              rw [hq'] at s1
              simp only [List.drop_succ_cons, List.drop_zero] at s1
              have hx : q ++ [c] ++ inq.take k = q ++ c :: inq.take k := by simp
              rw [hx] at s1
              rw [hq']
              simp only [List.drop_succ_cons, List.drop_zero]
              intro x hxm
              rcases List.mem_cons.mp hxm with rfl | hxm
              · exact hnl _ (by simp)
              · exact s1 x hxm

/-! ## `push_out_data` -/

theorem pushLoop_spec {R : σ → List Byte → List Byte → Nat → Prop} (hS : S.Lossless R) {m : Nat}
    {inq : List Byte} :
    ∀ (fuel : Nat) {s : BufStream σ} {p outq : List Byte} {room : Nat} (cnt : Nat),
    Rep m s.output.ring p → R s.stream inq outq room → min p.length room < fuel →
    ∃ s', s.pushLoop S fuel cnt = .ok (cnt + min p.length room, s') ∧
      Rep m s'.output.ring (p.drop room) ∧ s'.input = s.input ∧
      s'.output.delims = s.output.delims ∧ R s'.stream inq (outq ++ p.take room) (room - p.length)
  | 0, s, p, outq, room, cnt, h, hR, hf => by omega
  | fuel + 1, s, p, outq, room, cnt, h, hR, hf => by
    unfold pushLoop
    cases room with
    | zero =>
      have ha : S.availableForWrite s.stream = 0 := (hS.availableForWrite hR).mpr rfl
      exact ⟨s, by simp [ha], by simpa using h, rfl, rfl, by simpa using hR⟩
    | succ room =>
      have ha : ¬ S.availableForWrite s.stream = 0 := fun h0 => by
        have := (hS.availableForWrite hR).mp h0
        omega
      rw [if_neg ha]
      cases p with
      | nil =>
        refine ⟨s, by simp [h.pop_none], by simpa using h, rfl, rfl, by simpa using hR⟩
      | cons c p =>
        obtain ⟨r', ep, h', -⟩ := h.pop_some
        obtain ⟨st, ew, hR'⟩ := hS.write c hR
        obtain ⟨s', e', hrep, hin, hdel, hRk⟩ :=
          pushLoop_spec hS fuel (s := { s with stream := st, output := { s.output with ring := r' } })
            (cnt + 1) h' hR' (by simp at hf; omega)
        refine ⟨s', ?_, by simpa using hrep, hin, hdel, by simpa using hRk⟩
        simp only [ep, ew, res_bind_ok, Bool.not_true, Bool.false_eq_true, if_false]
        rw [e']
        simp only [List.length_cons]
        congr 2
        omega

end BufStream

/-! ## `MockStream` -/

namespace Mock

/-- The state of a mock stream: `inq` in `_stdin`, `outq` in `_stdout`. -/
def State (a b : Nat) (m : Mock) (inq outq : List Byte) (room : Nat) : Prop :=
  Rep a m.stdin inq ∧ Rep b m.stdout outq ∧ m.swapped = false ∧ room = b - outq.length

theorem lossless (a b : Nat) : iface.Lossless (State a b) where
  available := by
    intro s inq outq room ⟨h1, h2, h3, h4⟩
    simp [iface, available, activeIn, h3, h1.used]
  read := by
    intro s c inq outq room ⟨h1, h2, h3, h4⟩
    obtain ⟨r', e, h', -⟩ := h1.pop_some
    exact ⟨{ s with stdin := r' }, by simp [iface, read, activeIn, setIn, h3, e], h', h2, h3, h4⟩
  availableForWrite := by
    intro s inq outq room ⟨h1, h2, h3, h4⟩
    simp [iface, availableForWrite, activeOut, h3, h2.free, h4]
  write := by
    intro s inq outq room c ⟨h1, h2, h3, h4⟩
    obtain ⟨r', e, h', -⟩ := h2.push_space c false (by omega)
    exact ⟨{ s with stdout := r' }, by simp [iface, write, activeOut, setOut, h3, e], h1, h', h3, by simp; omega⟩

theorem create_state {a b : Nat} (ha : 0 < a) (hb : 0 < b) (bld : Build) :
    ∃ m, create bld a b = .ok m ∧ State a b m [] [] b := by
  obtain ⟨r₁, e₁, h₁, -⟩ := Rep.create ha bld (0 : Byte)
  obtain ⟨r₂, e₂, h₂, -⟩ := Rep.create hb bld (0 : Byte)
  exact ⟨⟨r₁, r₂, false⟩, by simp [create, e₁, e₂], h₁, h₂, rfl, by simp⟩

theorem State.inject {a b : Nat} {m : Mock} {inq outq : List Byte} {room : Nat} (h : State a b m inq outq room)
    (bytes : List Byte) : ∃ m', m.inject bytes = .ok (min bytes.length (a - inq.length), m') ∧
      State a b m' (inq ++ bytes.take (a - inq.length)) outq room := by
  obtain ⟨h1, h2, h3, h4⟩ := h
  obtain ⟨r', e, h', -⟩ := Rep.pushMany_false bytes h1
  refine ⟨{ m with stdin := r', swapped := false }, ?_, h', h2, rfl, h4⟩
  simp [Mock.inject, writeMany, swap, activeOut, setOut, h3, e]

theorem State.extract {a b : Nat} {m : Mock} {inq outq : List Byte} {room : Nat} (h : State a b m inq outq room) :
    ∃ m', m.extract = .ok (outq, m') ∧ State a b m' inq [] b := by
  obtain ⟨h1, h2, h3, h4⟩ := h
  obtain ⟨r', e, h'⟩ := h2.popMany_enough (List.replicate outq.length 0) outq.length (by omega) (by simp)
  refine ⟨{ m with stdout := r', swapped := false }, ?_, h1, by simpa using h', rfl, by simp⟩
  simp [Mock.extract, readMany, available, swap, activeIn, setIn, h3, e, h2.used]

end Mock
end Spine

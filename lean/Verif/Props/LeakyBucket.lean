import Verif.Props.RingBuffer
/-!
# Property C212: a ring buffer that is emptied often enough loses nothing

A producer puts a block of elements into the buffer in every round, and a consumer takes at most
`k` elements out after it (`RingBuffer::push` of a block and `RingBuffer::pop`,
`src/spine/structure/ringbuffer.hpp`).  The blocks may be of any size, as long as no stretch of
consecutive rounds brings more than `B` elements beyond the `k` per round that the consumer takes.
-/

namespace Spine
namespace LeakyBucket

open Ring

variable {α : Type}

/-! ## The program of the user -/

/-- The consumer: `pop` is called `k` times, and what it yields is kept. -/
def drain : Nat → Ring α → Res (List α × Ring α)
  | 0, r => .ok ([], r)
  | k + 1, r => do
    let (v, r) ← r.pop
    let (vs, r) ← drain k r
    pure (v.toList ++ vs, r)

/-- Rounds of the producer and the consumer.  Each round reports how many elements of its block the
buffer took and which elements the consumer received. -/
def rounds (k : Nat) (rollover : Bool) : List (List α) → Ring α → Res (List (Nat × List α) × Ring α)
  | [], r => .ok ([], r)
  | vs :: rest, r => do
    let (taken, r) ← r.pushMany vs rollover
    let (got, r) ← drain k r
    let (outs, r) ← rounds k rollover rest r
    pure ((taken, got) :: outs, r)

/-! ## Specification -/

/-- The number of elements in a list of blocks. -/
def volume (bs : List (List α)) : Nat := (bs.map List.length).sum

/-- No stretch of consecutive rounds brings more than `B` elements beyond `k` per round. -/
def Bounded (B k : Nat) (bs : List (List α)) : Prop :=
  ∀ pre seg post, bs = pre ++ seg ++ post → volume seg ≤ B + seg.length * k

/-! ## Proof -/

theorem volume_append (a b : List (List α)) : volume (a ++ b) = volume a + volume b := by
  simp [volume]

theorem drain_rep {n : Nat} : ∀ (k : Nat) {r : Ring α} {q : List α}, Rep n r q →
    ∃ r', drain k r = .ok (q.take k, r') ∧ Rep n r' (q.drop k)
  | 0, r, q, h => ⟨r, by simp [drain], by simpa using h⟩
  | k + 1, r, [], h => by
    obtain ⟨r', e, h'⟩ := drain_rep k h
    exact ⟨r', by simp [drain, h.pop_none, e], by simpa using h'⟩
  | k + 1, r, v :: q, h => by
    obtain ⟨r₁, e₁, h₁, -⟩ := h.pop_some
    obtain ⟨r', e, h'⟩ := drain_rep k h₁
    exact ⟨r', by simp [drain, e₁, e], by simpa using h'⟩

theorem push_fits {n : Nat} {r : Ring α} {q : List α} (h : Rep n r q) (vs : List α) (ro : Bool)
    (hf : q.length + vs.length ≤ n) :
    ∃ r', r.pushMany vs ro = .ok (vs.length, r') ∧ Rep n r' (q ++ vs) := by
  cases ro
  · obtain ⟨r', e, h', -⟩ := Rep.pushMany_false vs h
    refine ⟨r', ?_, ?_⟩
    · rw [e, Nat.min_eq_left (by omega)]
    · rwa [List.take_of_length_le (by omega)] at h'
  · obtain ⟨r', e, h'⟩ := Rep.pushMany_true vs h
    refine ⟨r', e, ?_⟩
    have : Queue.newest n (q ++ vs) = q ++ vs := by
      simp [Queue.newest, show q.length + vs.length - n = 0 by omega]
    rwa [this] at h'

/-- What the rounds do, from a state whose backlog is explained by a stretch of earlier rounds. -/
theorem rounds_rep {n B k : Nat} (ro : Bool) (hn : B + k ≤ n) (all : List (List α))
    (hb : Bounded B k all) :
    ∀ (bs : List (List α)) (pre seg : List (List α)) {r : Ring α} {q : List α}, Rep n r q →
      all = pre ++ seg ++ bs → q.length + seg.length * k ≤ volume seg →
      ∃ outs r' q', rounds k ro bs r = .ok (outs, r') ∧ Rep n r' q' ∧ q'.length ≤ B ∧
        outs.map Prod.fst = bs.map List.length ∧
        (outs.map Prod.snd).flatten ++ q' = q ++ bs.flatten ∧
        min q.length (bs.length * k) ≤ (outs.map Prod.snd).flatten.length ∧
        ∃ pre' seg', all = pre' ++ seg' ∧ q'.length + seg'.length * k ≤ volume seg'
  | [], pre, seg, r, q, h, ha, hq => by
    have := hb pre seg [] ha
    exact ⟨[], r, q, rfl, h, by omega, rfl, by simp, by simp, pre, seg, by simpa using ha, hq⟩
  | vs :: bs, pre, seg, r, q, h, ha, hq => by
    have hs := hb pre (seg ++ [vs]) bs (by simp [ha])
    have hv : volume (seg ++ [vs]) = volume seg + vs.length := by
      rw [volume_append]; simp [volume]
    have hl : (seg ++ [vs]).length * k = seg.length * k + k := by
      simp [Nat.add_mul]
    obtain ⟨r₁, e₁, h₁⟩ := push_fits h vs ro (by omega)
    obtain ⟨r₂, e₂, h₂⟩ := drain_rep k h₁
    have key : ∃ pre' seg', all = pre' ++ seg' ++ bs ∧
        ((q ++ vs).drop k).length + seg'.length * k ≤ volume seg' := by
      by_cases hk : k ≤ (q ++ vs).length
      · refine ⟨pre, seg ++ [vs], by simp [ha], ?_⟩
        rw [hl, hv, List.length_drop]
        simp only [List.length_append] at hk ⊢
        omega
      · refine ⟨pre ++ seg ++ [vs], [], by simp [ha], ?_⟩
        rw [List.length_drop]
        simp [volume]
        simp at hk
        omega
    obtain ⟨pre', seg', ha', hq'⟩ := key
    obtain ⟨outs, r', q', e, h', hB, ht, hg, hm, hx⟩ :=
      rounds_rep ro hn all hb bs pre' seg' h₂ ha' hq'
    refine ⟨(vs.length, (q ++ vs).take k) :: outs, r', q', ?_, h', hB, ?_, ?_, ?_, hx⟩
    · simp [rounds, e₁, e₂, e]
    · simp [ht]
    · simp only [List.map_cons, List.flatten_cons, List.append_assoc] at hg ⊢
      rw [hg, ← List.append_assoc, List.take_append_drop, List.append_assoc]
    · simp only [List.map_cons, List.flatten_cons, List.length_append, List.length_cons,
        List.length_take, List.length_drop, Nat.add_mul, Nat.one_mul] at hm ⊢
      omega

theorem rounds_append (k : Nat) (ro : Bool) (b : List (List α)) :
    ∀ (a : List (List α)) (r : Ring α), rounds k ro (a ++ b) r = (do
      let (o₁, r₁) ← rounds k ro a r
      let (o₂, r₂) ← rounds k ro b r₁
      pure (o₁ ++ o₂, r₂))
  | [], r => by
    simp only [List.nil_append, rounds, res_bind_ok]
    cases rounds k ro b r <;> rfl
  | vs :: a, r => by
    simp only [List.cons_append, rounds]
    cases r.pushMany vs ro with
    | error => rfl
    | ok p =>
      simp only [res_bind_ok]
      cases drain k p.2 with
      | error => rfl
      | ok d =>
        simp only [res_bind_ok, rounds_append k ro b a]
        cases rounds k ro a d.2 with
        | error => rfl
        | ok x =>
          simp only [res_bind_ok, res_pure]
          cases rounds k ro b x.2 <;> rfl

end LeakyBucket

open LeakyBucket Ring

variable {α : Type}

/-! ## The property -/

/-- **C212.**  With room for `B + k` elements the buffer takes every element of every block, also
when it is told to overwrite old elements; what the consumer receives, followed by what is still
stored, is everything that was put in, in the same order; and at most `B` elements are left waiting
at the end of a round. -/
theorem C212_no_loss {n B k : Nat} (hn : B + k ≤ n) (h0 : 0 < n) (b : Build) (init : α) (ro : Bool)
    (bs : List (List α)) (hb : Bounded B k bs) :
    ∃ r outs r' q, Ring.create b n init = .ok r ∧ rounds k ro bs r = .ok (outs, r') ∧
      outs.map Prod.fst = bs.map List.length ∧
      r'.Holds q ∧ (outs.map Prod.snd).flatten ++ q = bs.flatten ∧ q.length ≤ B := by
  obtain ⟨r, e, h, -⟩ := Rep.create h0 b init
  obtain ⟨outs, r', q, e', h', hB, ht, hg, -⟩ :=
    rounds_rep ro hn bs hb bs [] [] h (by simp) (by simp [volume])
  exact ⟨r, outs, r', q, e, e', ht, h'.holds, by simpa using hg, hB⟩

/-- **C212** for a buffer that was used before and is empty now. -/
theorem C212_used {n B k : Nat} (hn : B + k ≤ n) (h0 : 0 < n) {r : Ring α} (hr : Ring.Reachable n r)
    (he : r.Holds []) (ro : Bool) (bs : List (List α)) (hb : Bounded B k bs) :
    ∃ outs r' q, rounds k ro bs r = .ok (outs, r') ∧ outs.map Prod.fst = bs.map List.length ∧
      r'.Holds q ∧ (outs.map Prod.snd).flatten ++ q = bs.flatten ∧ q.length ≤ B := by
  obtain ⟨q₀, h⟩ := hr.rep h0
  cases Holds.unique he h.holds
  obtain ⟨outs, r', q, e', h', hB, ht, hg, -⟩ :=
    rounds_rep ro hn bs hb bs [] [] h (by simp) (by simp [volume])
  exact ⟨outs, r', q, e', ht, h'.holds, by simpa using hg, hB⟩

/-- **C212**, the delay: once `m` further rounds can take away `B` elements, the consumer has received
everything that was put in before those rounds. -/
theorem C212_delay {n B k : Nat} (hn : B + k ≤ n) (h0 : 0 < n) (b : Build) (init : α) (ro : Bool)
    (early late : List (List α)) (hb : Bounded B k (early ++ late)) (hm : B ≤ late.length * k) :
    ∃ r outs r', Ring.create b n init = .ok r ∧ rounds k ro (early ++ late) r = .ok (outs, r') ∧
      early.flatten <+: (outs.map Prod.snd).flatten := by
  obtain ⟨r, e, h, -⟩ := Rep.create h0 b init
  have hbe : Bounded B k early := fun pre seg post he =>
    hb pre seg (post ++ late) (by simp [he])
  obtain ⟨o₁, r₁, q₁, e₁, h₁, hB, -, hg₁, -, pre, seg, hs, hq⟩ :=
    rounds_rep ro hn early hbe early [] [] h (by simp) (by simp [volume])
  obtain ⟨o₂, r₂, q₂, e₂, -, -, -, hg₂, hm₂, -⟩ :=
    rounds_rep ro hn (early ++ late) hb late pre seg h₁ (by rw [hs]) hq
  refine ⟨r, o₁ ++ o₂, r₂, e, ?_, ?_⟩
  · simp [rounds_append, e₁, e₂]
  · have hp : q₁ <+: (o₂.map Prod.snd).flatten :=
      List.prefix_of_prefix_length_le (List.prefix_append q₁ late.flatten)
        (hg₂ ▸ List.prefix_append _ q₂) (by omega)
    have he : early.flatten = (o₁.map Prod.snd).flatten ++ q₁ := by simpa using hg₁.symm
    rw [he, List.map_append, List.flatten_append]
    exact (List.prefix_append_right_inj _).2 hp

/-- **C212**, the size is needed: with one place less, a single block of the permitted size is not
taken whole. -/
theorem C212_size_needed {n B k : Nat} (hn : n + 1 = B + k) (h0 : 0 < n) (b : Build) (init : α)
    (vs : List α) (hv : vs.length = B + k) :
    Bounded B k [vs] ∧ ∃ r outs r', Ring.create b n init = .ok r ∧
      rounds k false [vs] r = .ok (outs, r') ∧ outs.map Prod.fst = [B + k - 1] := by
  refine ⟨?_, ?_⟩
  · intro pre seg post h
    have hl := congrArg List.length h
    have hvol := congrArg volume h
    simp only [volume_append] at hvol
    simp [volume] at hl hvol ⊢
    match seg with
    | [] => simp
    | [x] => simp at hvol ⊢; omega
    | _ :: _ :: _ => simp at hl; omega
  · obtain ⟨r, e, h, -⟩ := Rep.create h0 b init
    obtain ⟨r₁, e₁, h₁, -⟩ := Rep.pushMany_false vs h
    obtain ⟨r₂, e₂, -⟩ := drain_rep k h₁
    refine ⟨r, _, r₂, e, by simp only [rounds, e₁, e₂, res_bind_ok, res_pure]; rfl, ?_⟩
    simp
    omega

/-- **C212**, the size is needed also with overwriting: with one place less, the block is taken, but
its first element is neither received nor stored. -/
theorem C212_size_needed_rollover {n B k : Nat} (hn : n + 1 = B + k) (h0 : 0 < n) (b : Build)
    (init : α) (vs : List α) (hv : vs.length = B + k) :
    ∃ r outs r' q, Ring.create b n init = .ok r ∧ rounds k true [vs] r = .ok (outs, r') ∧
      r'.Holds q ∧ (outs.map Prod.snd).flatten ++ q = vs.drop 1 := by
  obtain ⟨r, e, h, -⟩ := Rep.create h0 b init
  obtain ⟨r₁, e₁, h₁⟩ := Rep.pushMany_true vs h
  obtain ⟨r₂, e₂, h₂⟩ := drain_rep k h₁
  refine ⟨r, _, r₂, _, e, by simp only [rounds, e₁, e₂, res_bind_ok, res_pure]; rfl, h₂.holds, ?_⟩
  simp only [List.map_cons, List.map_nil, List.flatten_cons, List.flatten_nil, List.append_nil,
    List.take_append_drop, List.nil_append, Queue.newest, hv, ← hn, Nat.add_sub_cancel_left]

/-- The hypotheses are met by traffic that comes in bursts. -/
example : Bounded 3 2 [[1, 2, 3, 4, 5], [], [6, 7, 8]] := by
  intro pre seg post h
  have hl := congrArg List.length h
  have hvol := congrArg volume h
  simp only [volume_append] at hvol
  simp [volume] at hl hvol ⊢
  match pre, seg, hl, h with
  | _, [], _, _ => simp
  | [], [x], _, h => simp at h; simp [← h.1]
  | [], [x, y], _, h => simp at h; simp [← h.1, h.2.1]
  | _, _ :: _ :: _ :: _, _, _ => simp at hvol ⊢; omega
  | [_], [x], _, h => simp at h; simp [h.2.1]
  | [_], [x, y], _, h => simp at h; simp [h.2.1, ← h.2.2.1]
  | [_, _], [x], _, h => simp at h; simp [← h.2.2.1]
  | _ :: _ :: _, [x, y], hl, _ => simp at hl; omega
  | _ :: _ :: _ :: _, [x], hl, _ => simp at hl; omega

example : (do
    let r ← Ring.create .release 5 0
    let (outs, r) ← rounds 2 true [[1, 2, 3, 4, 5], [], [6, 7, 8]] r
    pure (outs, r.usedSpace) : Res _) =
    .ok ([(5, [1, 2]), (0, [3, 4]), (3, [5, 6])], 2) := by rfl

end Spine

import Verif.Props.LeakyBucket
/-!
# Property C214: offering again what a ring buffer did not take

A producer hands over its elements with `RingBuffer::push(buffer, length)`, keeps what the returned
number says was not taken, and offers this first in the next round; a consumer calls
`RingBuffer::pop` at most `k` times in each round (`src/spine/structure/ringbuffer.hpp`).
-/

namespace Spine
namespace OfferAgain

open Ring LeakyBucket

variable {α : Type}

/-! ## The program of the user -/

/-- Rounds of the producer, which has `kept` elements from earlier, and the consumer.  Yields what came
out, what the producer still keeps, and the buffer. -/
def offer (k : Nat) : List (List α) → List α → Ring α → Res (List α × List α × Ring α)
  | [], kept, r => .ok ([], kept, r)
  | vs :: rest, kept, r => do
    let (n, r) ← r.pushMany (kept ++ vs) false
    let (got, r) ← drain k r
    let (out, kept, r) ← offer k rest ((kept ++ vs).drop n) r
    pure (got ++ out, kept, r)

/-! ## Proof -/

theorem offer_rep {n : Nat} (k : Nat) : ∀ (bs : List (List α)) (kept : List α) {r : Ring α}
    {q : List α}, Rep n r q →
    ∃ out kept' r' q', offer k bs kept r = .ok (out, kept', r') ∧ Rep n r' q' ∧
      out ++ q' ++ kept' = q ++ kept ++ bs.flatten ∧
      (∀ bs₁ m, bs = bs₁ ++ List.replicate m [] →
        q.length + kept.length + bs₁.flatten.length ≤ m * min k n → q' = [] ∧ kept' = [])
  | [], kept, r, q, h => by
    refine ⟨[], kept, r, q, rfl, h, by simp, fun bs₁ m he hb => ?_⟩
    have hm : m = 0 := by
      have := congrArg List.length he
      simp at this
      omega
    subst hm
    simp only [Nat.zero_mul] at hb
    exact ⟨List.length_eq_zero_iff.mp (by omega), List.length_eq_zero_iff.mp (by omega)⟩
  | vs :: rest, kept, r, q, h => by
    have hq := h.qle
    obtain ⟨r₁, e₁, h₁, -⟩ := Rep.pushMany_false (kept ++ vs) h
    obtain ⟨r₂, e₂, h₂⟩ := drain_rep k h₁
    have hd : (kept ++ vs).drop (min (kept ++ vs).length (n - q.length))
        = (kept ++ vs).drop (n - q.length) := by
      rcases Nat.le_total (kept ++ vs).length (n - q.length) with hc | hc
      · rw [Nat.min_eq_left hc, List.drop_of_length_le hc, List.drop_of_length_le (Nat.le_refl _)]
      · rw [Nat.min_eq_right hc]
    obtain ⟨out, kept', r', q', e, h', ho, hz⟩ :=
      offer_rep k rest ((kept ++ vs).drop (n - q.length)) h₂
    refine ⟨_ ++ out, kept', r', q', by simp only [offer, e₁, e₂, hd, e, res_bind_ok, res_pure]; rfl,
      h', ?_, fun bs₁ m he hb => ?_⟩
    · rw [List.append_assoc, List.append_assoc, ← List.append_assoc out, ho]
      rw [← List.append_assoc, ← List.append_assoc, List.take_append_drop, List.append_assoc q,
        List.take_append_drop]
      simp
    · match bs₁, m, he, hb with
      | [], 0, he, _ => simp at he
      | [], m + 1, he, hb =>
        simp only [List.nil_append, List.replicate_succ, List.cons.injEq] at he
        obtain ⟨rfl, he'⟩ := he
        refine hz [] m he' ?_
        simp only [List.flatten_nil, List.length_nil, Nat.add_zero, List.append_nil,
          List.length_drop, List.length_append, List.length_take, Nat.add_mul, Nat.one_mul] at hb ⊢
        generalize m * min k n = x at hb ⊢
        omega
      | v :: bs₁, m, he, hb =>
        simp only [List.cons_append, List.cons.injEq] at he
        obtain ⟨rfl, he'⟩ := he
        refine hz bs₁ m he' ?_
        simp only [List.flatten_cons, List.length_drop, List.length_append, List.length_take] at hb ⊢
        generalize m * min k n = x at hb ⊢
        omega

end OfferAgain

open OfferAgain Ring

variable {α : Type}

/-! ## The property -/

/-- **C214.**  However small the buffer: what came out, what is stored and what the producer keeps are
together, in this order, everything that was to be handed over. -/
theorem C214_nothing_lost {n : Nat} (hn : 0 < n) (b : Build) (init : α) (k : Nat)
    (bs : List (List α)) :
    ∃ r out kept r' q, Ring.create b n init = .ok r ∧ offer k bs [] r = .ok (out, kept, r') ∧
      r'.Holds q ∧ out ++ q ++ kept = bs.flatten := by
  obtain ⟨r, e, h, -⟩ := Rep.create hn b init
  obtain ⟨out, kept, r', q, e', h', ho, -⟩ := offer_rep k bs [] h
  exact ⟨r, out, kept, r', q, e, e', h'.holds, by simpa using ho⟩

/-- **C214**, everything arrives: after `m` further rounds without new elements, enough for all of them at
`min k n` elements per round, the consumer has received everything, and nothing is stored or
kept. -/
theorem C214_arrives {n : Nat} (hn : 0 < n) (b : Build) (init : α) (k : Nat) (bs : List (List α))
    (m : Nat) (hm : bs.flatten.length ≤ m * min k n) :
    ∃ r r', Ring.create b n init = .ok r ∧
      offer k (bs ++ List.replicate m []) [] r = .ok (bs.flatten, [], r') ∧ r'.Holds [] := by
  obtain ⟨r, e, h, -⟩ := Rep.create hn b init
  obtain ⟨out, kept, r', q, e', h', ho, hz⟩ := offer_rep k (bs ++ List.replicate m []) [] h
  obtain ⟨rfl, rfl⟩ := hz bs m rfl (by simpa using hm)
  have : out = bs.flatten := by simpa using ho
  exact ⟨r, r', e, this ▸ e', h'.holds⟩

/-- **C214** from any state: the same for a buffer that was used before and still holds elements, and a
producer that already keeps some. -/
theorem C214_used {n : Nat} {r : Ring α} (hr : Ring.Reachable n r) (hn : 0 < n) {q₀ : List α}
    (hq : r.Holds q₀) (k : Nat) (kept₀ : List α) (bs : List (List α)) :
    (∃ out kept r' q, offer k bs kept₀ r = .ok (out, kept, r') ∧ r'.Holds q ∧
      out ++ q ++ kept = q₀ ++ kept₀ ++ bs.flatten) ∧
    ∀ m, q₀.length + kept₀.length + bs.flatten.length ≤ m * min k n →
      ∃ r', offer k (bs ++ List.replicate m []) kept₀ r = .ok (q₀ ++ kept₀ ++ bs.flatten, [], r') ∧
        r'.Holds [] := by
  obtain ⟨q', h⟩ := hr.rep hn
  cases Holds.unique hq h.holds
  refine ⟨?_, fun m hm => ?_⟩
  · obtain ⟨out, kept, r', q, e', h', ho, -⟩ := offer_rep k bs kept₀ h
    exact ⟨out, kept, r', q, e', h'.holds, ho⟩
  · obtain ⟨out, kept, r', q, e', h', ho, hz⟩ := offer_rep k (bs ++ List.replicate m []) kept₀ h
    obtain ⟨rfl, rfl⟩ := hz bs m rfl hm
    have : out = q₀ ++ kept₀ ++ bs.flatten := by simpa using ho
    exact ⟨r', this ▸ e', h'.holds⟩

/-- Seven elements go through a buffer with two places. -/
example : (do
    let r ← Ring.create .debug 2 0
    let (out, kept, r) ← offer 3 [[1, 2, 3, 4, 5], [6, 7], []] [] r
    pure (out, kept, r.usedSpace) : Res _) = .ok ([1, 2, 3, 4, 5, 6], [7], 0) := by rfl

example : ([[1, 2, 3, 4, 5], [6, 7]] : List (List Nat)).flatten.length ≤ 4 * min 3 2 := by decide

end Spine

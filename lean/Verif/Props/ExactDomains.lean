import Verif.Props.Stream
import Verif.Props.Schedule
import Verif.Props.Text
import Verif.Props.Array
import Verif.Props.Platform
import Verif.Props.Interrupt
/-!
# Exactly when the partial claims hold

C17, C53, C56, C69, C98 and C109 are false of the code for some inputs. Here each of them is shown to hold for exactly the inputs named: the
conditions of the `_partial` theorems cannot be weakened.
-/

namespace Spine

section abort
open BufStream Transaction
variable {σ : Type} {S : Stream σ}

/-- **C17, exactly.** For every reply that the build accepts: aborting takes back the reply and leaves the older output alone iff there was room in
the output buffer when the transaction began; otherwise it deletes that output too. -/
theorem C17_abort_exact (n m : Nat) (hn : 0 < n) (hm : 0 < m) (s : BufStream σ) (h : Reachable S n m s)
    (q p : List Byte) (hq : s.input.Holds q) (hp : s.output.Holds p) (line rest : List Byte)
    (hf : Lines.First s.input.delims q line rest) (b : Build) (ps : List Piece)
    (hfit : b = .release ∨ (Piece.bytes ps).length < m - p.length ∨ ps = []) :
    ∃ t t₁ s₁ t₂ s₂ k, Transaction.new b s = .ok (some t) ∧ t.reply b s ps = .ok (k, t₁, s₁) ∧
      t₁.abort b s₁ = .ok (t₂, s₂) ∧ s₂.input.Holds rest ∧ (s₂.output.Holds p ↔ p.length < m) ∧
      (p.length = m → s₂.output.Holds []) := by
  obtain ⟨q', p', hi⟩ := h.inv hn hm
  obtain rfl := hi.input.1.holds.unique hq
  obtain rfl := hi.output.holds.unique hp
  have hle : p'.length ≤ m := hi.output.qle
  obtain ⟨v, en, -, -⟩ := new_some hi hf b
  obtain ⟨s₁, er, i₁, hin, -, -⟩ := reply_spec b ps ⟨true, some v, 0, false⟩ hi rfl rfl hfit
  by_cases hroom : p'.length < m
  · obtain ⟨r', ed, hr', -⟩ := i₁.output.dropLast (min (Piece.bytes ps).length (m - p'.length)) (by
      simp only [List.length_append, List.length_take]; omega)
    have hback : (p' ++ (Piece.bytes ps).take (m - p'.length)).take
        ((p' ++ (Piece.bytes ps).take (m - p'.length)).length - min (Piece.bytes ps).length (m - p'.length)) = p' := by
      rw [List.take_append_of_le_length]
      · rw [List.take_of_length_le]; simp; omega
      · simp
    rw [hback] at hr'
    obtain ⟨s₂, ea, i₂, -⟩ := abort_first b
      ⟨true, some v, min (Piece.bytes ps).length (m - p'.length), false⟩ i₁ rfl rfl (line := line) (rest := rest)
      (by rw [hin]; exact hf) (s₁ := { s₁ with output := { s₁.output with ring := r' } }) (p₁ := p')
      (by simp [undo, deref, outputDropLast, ed]) ⟨i₁.input, hr'⟩ rfl rfl
    exact ⟨_, _, s₁, ⟨true, none, 0, true⟩, s₂, _, en, er, by simpa using ea, i₂.input.1.holds, ⟨fun _ => hroom, fun _ => i₂.output.holds⟩,
      fun h => absurd h (by omega)⟩
  · have hfull : p'.length = m := by omega
    have hz : m - p'.length = 0 := by omega
    rw [hz, List.take_zero, List.append_nil] at i₁
    rw [hz, Nat.min_zero] at er
    obtain ⟨r', ed, hr'⟩ := i₁.output.dropLast_zero_full hfull
    obtain ⟨s₂, ea, i₂, -⟩ := abort_first b ⟨true, some v, 0, false⟩ i₁ rfl rfl (line := line) (rest := rest) (by rw [hin]; exact hf)
      (s₁ := { s₁ with output := { s₁.output with ring := r' } }) (p₁ := [])
      (by simp [undo, deref, outputDropLast, ed]) ⟨i₁.input, hr'⟩ rfl rfl
    refine ⟨_, _, s₁, ⟨true, none, 0, true⟩, s₂, _, en, er, by simpa using ea, i₂.input.1.holds, ⟨fun h => ?_, fun h => absurd h hroom⟩,
      fun _ => i₂.output.holds⟩
    have := i₂.output.holds.unique h
    rw [← this] at hfull
    simp at hfull
    omega

end abort

section schedule
open Schedule
variable {F : Type} [Arith F]

/-- **C53, exactly.** For blocks that start within the day at different times, `start_of_next_block` is right at all times iff the blocks are listed
in the order of their starts. -/
theorem C53_exact {plan : List (Block F)} (hs : ∀ x ∈ plan, 0 ≤ x.start ∧ x.start < daySeconds)
    (hd : plan.Pairwise (fun x y => x.start ≠ y.start)) :
    (∀ t, ∃ n, startOfNext plan t = .ok n ∧ IsNextStart plan t n) ↔ plan.Pairwise (fun x y => x.start < y.start) := by
  constructor
  · intro h
    induction plan with
    | nil => exact .nil
    | cons x xs ih =>
      have hhead : ∀ y ∈ xs, x.start < y.start := by
        intro y hy
        refine Int.lt_of_not_ge fun hc => ?_
        obtain ⟨n, e, hn, -⟩ := h (y.start - 1)
        rw [startOfNext_spec hs, List.map_cons, List.find?_cons_of_pos (by simp; omega)] at e
        obtain rfl : x.start = n := Except.ok.inj e
        have h1 := hn y (by simp [hy]) (by omega)
        have h2 := (List.pairwise_cons.mp hd).1 y hy
        omega
      refine List.pairwise_cons.mpr ⟨hhead, ih (fun y hy => hs y (by simp [hy])) hd.of_cons fun t => ?_⟩
      rw [startOfNext_spec fun y hy => hs y (by simp [hy])]
      refine ⟨_, rfl, ?_⟩
      have hsome : ∀ t', (∀ y ∈ xs, t < y.start → t' < y.start) → t ≤ t' → x.start ≤ t' →
          IsNextStart xs t (((xs.map Block.start).find? fun s => decide (t < s)).getD daySeconds) := by
        intro t' h1 h2 h3
        obtain ⟨n, e, hn, hor⟩ := h t'
        rw [startOfNext_spec hs, List.map_cons, List.find?_cons_of_neg (by simpa using h3)] at e
        have hfind : ((xs.map Block.start).find? fun s => decide (t < s)) = (xs.map Block.start).find? fun s => decide (t' < s) := by
          clear e hn hor hs hd h hhead ih
          induction xs with
          | nil => rfl
          | cons y ys ih =>
            have := h1 y (by simp)
            rw [List.map_cons, List.find?_cons, List.find?_cons, ih fun z hz => h1 z (by simp [hz])]
            by_cases hy : t < y.start
            · simp [hy, this hy]
            · simp [hy, show ¬ t' < y.start by omega]
        rw [hfind, Except.ok.inj e]
        refine ⟨fun y hy ht => hn y (by simp [hy]) (h1 y hy ht), ?_⟩
        rcases hor with ⟨y, hy, rfl, ht⟩ | ⟨rfl, hall⟩
        · rcases List.mem_cons.mp hy with rfl | hy
          · omega
          · exact .inl ⟨y, hy, rfl, by omega⟩
        · exact .inr ⟨rfl, fun y hy => by
            have := hall y (by simp [hy])
            have := h1 y hy
            omega⟩
      by_cases ht : x.start ≤ t
      · exact hsome t (fun _ _ h => h) (le_refl _) ht
      · exact hsome x.start (fun y hy _ => hhead y hy) (by omega) (le_refl _)
  · intro h t
    exact C53_next_partial hs (h.imp fun h => le_of_lt h)

/-- The plan of `C53_order_counterexample` is one of different starts, in the wrong order. -/
example : nightPlan.Pairwise (fun x y => x.start ≠ y.start) ∧ ¬ nightPlan.Pairwise (fun x y => x.start < y.start) := by
  simp [nightPlan]

end schedule

section strip
open Text

/-- **C56, exactly.** `lstrip` is right iff the text has a character that is no delimiter, and `rstrip` iff its last character is one. -/
theorem C56_exact (s d : List Char) : ((∃ r, lstrip s d = .ok r ∧ IsLstrip s d r) ↔ ∃ c ∈ s, c ∉ d) ∧
    ((∃ r, rstrip s d = .ok r ∧ IsRstrip s d r) ↔ ∃ c, s.getLast? = some c ∧ c ∉ d) := by
  have hblank : ∀ {r}, (lstrip s d = .ok r ∨ rstrip s d = .ok r) → ∃ c ∈ s, c ∉ d := by
    intro r h
    refine Classical.byContradiction fun hc => ?_
    obtain ⟨h1, h2⟩ := C56_blank_counterexample (s := s) (d := d) fun c hc' => Classical.byContradiction fun hn => hc ⟨c, hc', hn⟩
    rw [h1, h2] at h
    simp at h
  refine ⟨⟨fun ⟨r, e, _⟩ => hblank (.inl e), C56_lstrip_partial⟩, ⟨?_, ?_⟩⟩
  · rintro ⟨r, e, p', hs, hp', hr⟩
    obtain ⟨c, hc, hcd⟩ := hblank (.inr e)
    cases hlast : r.getLast? with
    | none =>
      rw [List.getLast?_eq_none_iff] at hlast
      subst hlast
      rw [List.nil_append] at hs
      subst hs
      exact absurd (hp' c hc) hcd
    | some l =>
      obtain ⟨r', rfl⟩ : ∃ r', r = r' ++ [l] := List.getLast?_eq_some_iff.mp hlast
      have hl := hr l hlast
      rw [hs, C56_rstrip_counterexample hp' hl] at e
      have e' := Except.ok.inj e
      cases hrev : p'.reverse with
      | nil =>
        rw [List.reverse_eq_nil_iff] at hrev
        subst hrev
        exact ⟨l, by rw [hs]; simp, hl⟩
      | cons x xs =>
        have hx : p' = xs.reverse ++ [x] := by rw [← List.reverse_reverse p', hrev, List.reverse_cons]
        exfalso
        have h1 := congrArg List.getLast? e'
        rw [hx, ← List.append_assoc, List.drop_append_of_le_length (by simp)] at h1
        simp at h1
        exact hl (h1 ▸ hp' x (by rw [hx]; simp))
  · rintro ⟨c, hc, hcd⟩
    obtain ⟨s', rfl⟩ := List.getLast?_eq_some_iff.mp hc
    exact ⟨_, C56_rstrip_partial hcd⟩

example : (∃ c, "a b".toList.getLast? = some c ∧ c ∉ " ".toList) := ⟨'b', rfl, by decide⟩

end strip

section arrays
variable {α : Type}
open World

/-- **C69, exactly.** `swap` exchanges the contents of two arrays iff they have the same size. -/
theorem C69_exact {w : World α} {h o : Nat} {xs ys : List α} (hx : w.Shows h xs) (hy : w.Shows o ys) :
    (∃ w', w.swap h o = .ok w' ∧ w'.Shows h ys ∧ w'.Shows o xs) ↔ xs.length = ys.length := by
  refine ⟨?_, C69_swap_partial hx hy⟩
  rintro ⟨w', e, ⟨h1, -⟩, -⟩
  have hs := hx.1
  cases hh : w.obj h with
  | error _ => simp [World.size, hh] at hs
  | ok a =>
    cases ho : w.obj o with
    | error _ => have := hy.1; simp [World.size, ho] at this
    | ok a' =>
      have hs' := hy.1
      simp only [World.size, hh, ho, res_bind_ok, res_pure] at hs hs'
      by_cases hho : h = o
      · subst hho
        rw [hh] at ho
        cases ho
        rw [hs] at hs'
        exact Except.ok.inj hs'
      · have h3 : (w.put h { a with store := a'.store }).obj o = .ok a' := by
          rw [obj_ok] at ho ⊢; simp only [World.put, upd_ne _ _ (Ne.symm hho)]; exact ho
        simp only [World.swap, hh, ho, h3, res_bind_ok, res_pure] at e
        obtain rfl := Except.ok.inj e
        have h4 : ((w.put h { a with store := a'.store }).put o { a' with store := a.store }).obj h =
            .ok { a with store := a'.store } := by
          rw [obj_ok]; simp only [World.put, upd_ne _ _ hho, upd_same]
        simp only [World.size, h4, res_bind_ok, res_pure] at h1
        rw [hs] at h1
        exact Except.ok.inj h1

end arrays

section delays

/-- **C98, exactly.** For µs of less than 2^31: the delay lasts long enough iff it is for less than 1 ms or for whole ms; otherwise it lasts for the
whole ms below. A delay of ms lasts long enough iff the number is one of an `int32_t`. -/
theorem C98_exact (d : Int) : (0 ≤ d → d < 2 ^ 31 → (d ≤ (zephyrDelayUs d).least ↔ d < 1000 ∨ d % 1000 = 0)) ∧
    (0 ≤ d → (d * 1000 ≤ (zephyrDelayMs d).least ↔ d < 2 ^ 31)) := by
  constructor
  · intro h0 h1
    refine ⟨fun h => ?_, (C98_partial h0 h1).2.2⟩
    refine Classical.byContradiction fun hc => ?_
    have e2 : toInt32 (d / 1000) = d / 1000 := by unfold toInt32; omega
    unfold zephyrDelayUs at h
    rw [if_pos (by omega), Int.tdiv_eq_ediv_of_nonneg h0, e2] at h
    simp only [Pause.least] at h
    omega
  · intro h0
    refine ⟨fun h => ?_, fun h1 => (C98_partial h0 h1).1⟩
    unfold zephyrDelayMs at h
    simp only [Pause.least] at h
    have : toInt32 d < 2 ^ 31 := by unfold toInt32; omega
    omega

end delays

section interrupts
open Interrupt
variable {H : Type}

/-- **C109, exactly.** On a board whose lines are looked up, for a pin with a free line: detaching undoes attaching iff the pin has the number of
its line. -/
theorem C109_exact (b : Build) (board : Board) (ls : Lines H) (i : Interrupt H) (c : Option H) (t : Trigger) (n : Nat)
    (hd : board.direct = false) (hn : board.line i.pin = some n) (hc : n < board.count) (hfree : ls n = none) :
    (∃ i' ls', attach b board ls i c t = .ok (i', ls') ∧ detach ls' i' = ls) ↔ n = i.pin := by
  constructor
  · rintro ⟨i', ls', e, h⟩
    refine Classical.byContradiction fun hne => ?_
    simp only [attach, hd, hn, Option.isSome_some, spnAssert_true, res_bind_ok, Bool.false_eq_true, if_false, res_pure, Except.ok.injEq,
      Prod.mk.injEq] at e
    obtain ⟨rfl, rfl⟩ := e
    have := congrFun h n
    simp [detach, detachLine, attachLine, hne, hc, hfree] at this
  · rintro rfl
    exact C109_detach_partial b board ls i c t hn hfree

/-- Pins of a Mega that meet the conditions of `C109_exact`, of both kinds: none of its pins with a line has the number of its line. -/
example : mega.direct = false ∧ mega.line 2 = some 0 ∧ 0 < mega.count ∧ ∀ p, mega.line p ≠ some p := by
  refine ⟨rfl, rfl, by decide, fun p => ?_⟩
  simp only [mega]
  grind

end interrupts

end Spine

import Verif.Model.Interrupt
/-!
# C108, C109: interrupts on Arduino
-/

namespace Spine
open Interrupt

variable {H : Type}

/-- What the core does with mode bits, from the AVR core's `Arduino.h`: `LOW` 0, `CHANGE` 1, `FALLING` 2, `RISING` 3. -/
def coreMode : Trigger → Option Nat
  | .both => some 1
  | .falling => some 2
  | .rising => some 3
  | .undefined => none

/-- **C108.** On a board whose lines are looked up, attaching a callback for a trigger to a pin that has an interrupt line sets exactly that line. Missing: the
boards that are given pin numbers. -/
theorem C108_attach_partial (b : Build) (board : Board) (hd : board.direct = false) (ls : Lines H) (i : Interrupt H) (c : H) (t : Trigger)
    (m : Nat) (ht : coreMode t = some m) (n : Nat) (hn : board.line i.pin = some n) (hc : n < board.count) :
    ∃ i' ls', attach b board ls i (some c) t = .ok (i', ls') ∧ ls' n = some (some c, m) ∧ ∀ k, k ≠ n → ls' k = ls k := by
  have htu : t ≠ .undefined := by rintro rfl; simp [coreMode] at ht
  have hm : modeBits t = m := by cases t <;> simp_all [coreMode, modeBits]
  refine ⟨{ i with mode := t, callback := some c }, attachLine board ls n (some c, m), ?_, ?_, ?_⟩
  · simp [attach, hd, hn, htu, hm]
  · simp [attachLine, hc]
  · intro k hk; simp [attachLine, hk]

/-- **C108.** Attaching again without arguments sets what was set last. -/
theorem C108_again (b : Build) (board : Board) (hd : board.direct = false) (ls ls₂ : Lines H) (i : Interrupt H) (c : H) (t : Trigger)
    (m : Nat) (ht : coreMode t = some m) (n : Nat) (hn : board.line i.pin = some n) (hc : n < board.count) :
    ∃ i' ls' i'' ls'', attach b board ls i (some c) t = .ok (i', ls') ∧ attach b board ls₂ i' none .undefined = .ok (i'', ls'')
      ∧ ls'' n = some (some c, m) ∧ ∀ k, k ≠ n → ls'' k = ls₂ k := by
  have htu : t ≠ .undefined := by rintro rfl; simp [coreMode] at ht
  have hm : modeBits t = m := by cases t <;> simp_all [coreMode, modeBits]
  refine ⟨{ i with mode := t, callback := some c }, attachLine board ls n (some c, m), { i with mode := t, callback := some c },
    attachLine board ls₂ n (some c, m), ?_, ?_, ?_, ?_⟩
  · simp [attach, hd, hn, htu, hm]
  · simp [attach, hd, hn, hm]
  · simp [attachLine, hc]
  · intro k hk; simp [attachLine, hk]

/-- The Uno (ATmega328P): two lines, on pins 2 and 3. -/
def uno : Board := ⟨true, 2, fun p => if p = 2 then some 0 else if p = 3 then some 1 else none⟩

/-- The Mega 2560: lines 0 to 5 on pins 2, 3, 21, 20, 19, 18. -/
def mega : Board := ⟨false, 6, fun p => if p = 2 then some 0 else if p = 3 then some 1 else if p = 21 then some 2 else if p = 20 then some 3
  else if p = 19 then some 4 else if p = 18 then some 5 else none⟩

example : mega.direct = false ∧ mega.line 21 = some 2 ∧ 2 < mega.count := by decide

/-- On an Uno, attaching to pin 2 sets no line at all, for the pin's number is taken for that of a line. -/
theorem C108_attach_counterexample (b : Build) (ls : Lines Nat) :
    ∃ i', attach b uno ls ⟨2, .rising, some 7⟩ (some 7) .rising = .ok (i', ls) := by
  refine ⟨⟨2, .rising, some 7⟩, ?_⟩
  have h : attachLine uno ls 2 (some 7, 3) = ls := by funext k; simp [attachLine, uno]
  simpa [attach, uno, modeBits] using h

/-- Without a callback ever given, the line calls a null pointer; without a trigger, it fires for as long as the pin is low. -/
theorem C108_default_counterexample (b : Build) :
    ∃ i' ls', attach b mega (fun _ => none) (⟨2, .undefined, none⟩ : Interrupt Nat) none .undefined = .ok (i', ls') ∧ ls' 0 = some (none, 0) :=
  ⟨⟨2, .undefined, none⟩, attachLine mega (fun _ => none) 0 (none, 0), by simp [attach, mega, modeBits], by simp [attachLine, mega]⟩

/-- **C109.** Detaching undoes attaching, and touches no other line, if the pin has the number of its line. Missing: other pins, for which it is false. -/
theorem C109_detach_partial (b : Build) (board : Board) (ls : Lines H) (i : Interrupt H) (c : Option H) (t : Trigger)
    (hn : board.line i.pin = some i.pin) (hfree : ls i.pin = none) :
    ∃ i' ls', attach b board ls i c t = .ok (i', ls') ∧ detach ls' i' = ls := by
  have hgo : ∀ e, detachLine (attachLine board ls i.pin e) i.pin = ls := by
    intro e; funext k
    by_cases hk : k = i.pin
    · simp [detachLine, hk, hfree]
    · simp [detachLine, attachLine, hk]
  have hdet : ∀ (i' : Interrupt H) e, i'.pin = i.pin → detach (attachLine board ls i.pin e) i' = ls := by
    intro i' e hp; rw [detach, hp]; exact hgo e
  refine ⟨{ i with mode := if t ≠ .undefined then t else i.mode, callback := match c with
      | some c => some c
      | none => i.callback },
    attachLine board ls i.pin (match c with
      | some c => some c
      | none => i.callback, modeBits (if t ≠ .undefined then t else i.mode)), ?_, hdet _ _ rfl⟩
  cases hd : board.direct
  · simp only [attach, hd, hn, Option.isSome_some, spnAssert_true, res_bind_ok]; rfl
  · simp only [attach, hd, if_true]; rfl

/-- On a Mega, detaching the interrupt of pin 2 leaves it attached, and removes the one of pin 21. -/
theorem C109_detach_counterexample (b : Build) (ls : Lines Nat) :
    ∃ i' ls', attach b mega ls ⟨2, .rising, some 7⟩ (some 7) .rising = .ok (i', ls')
      ∧ detach ls' i' 0 = some (some 7, 3) ∧ detach ls' i' 2 = none ∧ mega.line 21 = some 2 :=
  ⟨⟨2, .rising, some 7⟩, attachLine mega ls 0 (some 7, 3), by simp [attach, mega, modeBits], by simp [detach, detachLine, attachLine, mega],
    by simp [detach, detachLine], by decide⟩

end Spine

import Verif.Model.EventData
/-!
# C110: the data of an event
-/

namespace Spine
open EvData

/-- **C110.** The accessor of the type the data was made from gives the value back. -/
theorem C110_same (b : Build) (x : Fl) (n : UInt32) (t : Int64) :
    value b (some (.float x)) = .ok x ∧ unsignedValue b (some (.unsigned n)) = .ok n ∧ ms b (some (.millis t)) = .ok t
      ∧ s b (some (.seconds t)) = .ok t := by
  cases b <;> exact ⟨rfl, rfl, rfl, rfl⟩

/-- **C110.** An accessor that returns from data that holds something returns what it was made from: a value of one type is never read as one of another. -/
theorem C110_type (b : Build) (v : EvValue) :
    (∀ x, value b (some v) = .ok x → v = .float x) ∧ (∀ n, unsignedValue b (some v) = .ok n → v = .unsigned n)
      ∧ (∀ t, ms b (some v) = .ok t → v = .millis t) ∧ ∀ t, s b (some v) = .ok t → v = .seconds t := by
  cases b <;> cases v <;> simp [value, unsignedValue, ms, s, EvData.read, spnAssert]

/-- **C110.** In a debug build the accessors return for nothing else. Missing: release builds, where an empty object is read as zero. -/
theorem C110_empty_partial : (∀ x, value .debug none ≠ .ok x) ∧ (∀ n, unsignedValue .debug none ≠ .ok n) ∧ (∀ t, ms .debug none ≠ .ok t)
    ∧ ∀ t, s .debug none ≠ .ok t := by
  simp [value, unsignedValue, ms, s, EvData.read, spnAssert]

/-- In a release build data that was never given reads as zero. -/
theorem C110_empty_counterexample : value .release none = .ok (.num false 0) ∧ ms .release none = .ok 0 := ⟨rfl, rfl⟩

/-- **C110**, all other cases: an accessor of another type, or of data that was never given, fails its assertion in a debug build. In a release build the former throws
`std::bad_variant_access` and the latter gives zero. -/
theorem C110_other (b : Build) (v : EvValue) :
    ((∀ x, v ≠ .float x) → value b (some v) = .error (if b = .debug then .assertFailed else .exception)) ∧
    ((∀ n, v ≠ .unsigned n) → unsignedValue b (some v) = .error (if b = .debug then .assertFailed else .exception)) ∧
    ((∀ t, v ≠ .millis t) → ms b (some v) = .error (if b = .debug then .assertFailed else .exception)) ∧
    ((∀ t, v ≠ .seconds t) → s b (some v) = .error (if b = .debug then .assertFailed else .exception)) ∧
    value .debug none = .error .assertFailed ∧ unsignedValue .debug none = .error .assertFailed ∧
    ms .debug none = .error .assertFailed ∧ s .debug none = .error .assertFailed ∧
    value .release none = .ok (.num false 0) ∧ unsignedValue .release none = .ok 0 ∧ ms .release none = .ok 0 ∧ s .release none = .ok 0 := by
  refine ⟨?_, ?_, ?_, ?_, rfl, rfl, rfl, rfl, rfl, rfl, rfl, rfl⟩ <;> cases b <;> cases v <;>
    simp [value, unsignedValue, ms, s, EvData.read, spnAssert]

example : ms .release (some (.seconds 3)) = .error .exception := rfl

end Spine

import Verif.Model.Units
import Mathlib.Data.Nat.Digits.Defs
/-!
# Texts

What stripping means, and which texts denote a time.
-/

namespace Spine

/-- `r` is `s` without its leading characters from `d`. -/
def IsLstrip (s d r : List Char) : Prop := ∃ p, s = p ++ r ∧ (∀ c ∈ p, c ∈ d) ∧ ∀ c, r.head? = some c → c ∉ d

/-- `r` is `s` without its trailing characters from `d`. -/
def IsRstrip (s d r : List Char) : Prop := ∃ p, s = r ++ p ∧ (∀ c ∈ p, c ∈ d) ∧ ∀ c, r.getLast? = some c → c ∉ d

/-- The digits of a numeral, most significant first. -/
def Numeral (text : List Char) (n : Nat) : Prop :=
  ∃ ds : List Nat, ds ≠ [] ∧ (∀ d ∈ ds, d < 10) ∧ text = (ds.map fun d => Char.ofNat (48 + d)).reverse ∧ n = Nat.ofDigits 10 ds

/-- The abbreviations of units of time. -/
def Mag.text : Mag → List Char
  | .micro => ['u', 's']
  | .milli => ['m', 's']
  | .base => ['s']
  | .minute => ['m']
  | .hour => ['h']
  | .day => ['d']

/-- The text denotes `n` times the unit `m`. -/
def DenotesTime (text : List Char) (m : Mag) (n : Nat) : Prop := ∃ ds, text = ds ++ m.text ∧ Numeral ds n

end Spine

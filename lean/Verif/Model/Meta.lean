import Verif.Core.Outcome
/-!
# Model of compile-time helpers

`/repo/src/spine/core/utils/concatenate.hpp` and `/repo/src/spine/core/meta/unique_type_variant.hpp`. A character array is the list of its elements, including the
NUL of a literal. Type lists are lists over any type with decidable equality (`std::is_same`).
-/

namespace Spine
namespace Meta

/-! ## concatenate.hpp -/

/-- `string_size`, `concatenate.hpp:39-43`, of the lengths of the arrays. -/
def stringSize : List Nat → Nat
  | [] => 0
  | i :: is => (if i ≠ 0 then i - 1 else 0) + stringSize is

/-- `lhs[I]...` for `I` in `gen_seq<string_length<Lhs>>`, `concatenate.hpp:17-22`, `:52`: the indices 0 to `n - 1`. -/
def elements (a : List Char) (n : Nat) : Res (List Char) := (List.range n).mapM fun k => rd a k

/-- `{{...}}` as an aggregate of `n` characters: more initialisers than elements do not compile, missing ones are NUL. -/
def aggregate (n : Nat) (cs : List Char) : Option (List Char) :=
  if cs.length ≤ n then some (cs ++ List.replicate (n - cs.length) '\x00') else none

/-- `concat` of two arrays, `concatenate.hpp:50-58`; `none` if it does not compile. -/
def concat2 (lhs rhs : List Char) : Res (Option (List Char)) := do
  let l ← elements lhs (stringSize [lhs.length])
  let r ← elements rhs (stringSize [rhs.length])
  return aggregate (stringSize [lhs.length, rhs.length] + 1) (l ++ r ++ ['\x00'])

/-- `concat`, `concatenate.hpp:55-69`: of none, one, two or more arrays. The result has to have the type `combined_string<Ts...>`, so its length is
checked. -/
def concat : List (List Char) → Res (Option (List Char))
  | [] => concat2 ['\x00'] ['\x00']
  | [a] => concat2 a ['\x00']
  | [a, b] => concat2 a b
  | a :: b :: c :: rest => do
    match ← concat (b :: c :: rest) with
    | none => return none
    | some r =>
      match ← concat2 a r with
      | none => return none
      | some s => return if s.length = stringSize ((a :: b :: c :: rest).map List.length) + 1 then some s else none

/-! ## unique_type_variant.hpp -/

variable {Ty : Type} [DecidableEq Ty]

/-- `Contains`, `unique_type_variant.hpp:42-53`. -/
def contains : List Ty → Ty → Bool
  | [], _ => false
  | head :: tail, t => if head = t then true else contains tail t

/-- `UniqueHelper` and `Unique`, `unique_type_variant.hpp:55-71`. -/
def unique : List Ty → List Ty
  | [] => []
  | head :: tail => if contains (unique tail) head then unique tail else head :: unique tail

end Meta
end Spine

import Verif.Core.Outcome
/-!
# Model of `Result`

`/repo/src/spine/structure/result.hpp` with the variant of `/repo/src/spine/core/meta/unique_type_variant.hpp`.

The three types of a `Result` may coincide, and then share an alternative of the variant. So types are codes with decidable equality; a value of the
variant is a code with a value of its type, and `std::get` compares codes. The functions given to the combinators may throw, and those given
to `chain` act on a world `σ`, through which it can be observed which of them run. Not modelled: references as types. Objects that are
moved from and writing through the `I&` that `chain` hands out are in `ResultObjects`, where it is also explained why the `unwrap` functions leave the object as it is.
-/

namespace Spine

/-- The C++ types that occur, which of them convert implicitly into another, and into which of them a `bool` converts. -/
structure Types where
  Code : Type
  [dec : DecidableEq Code]
  El : Code → Type
  conv : (a b : Code) → Option (El a → El b)
  ofBool : (a : Code) → Option (Bool → El a)

attribute [instance] Types.dec

namespace Result

/-- `Result::Type`, `result.hpp:176`. -/
inductive Kind
  | noValue
  | ok
  | intermediary
  | failed
deriving DecidableEq

end Result

open Result

/-- The members of a `Result<T, E, I>`, `result.hpp:187-188`. -/
structure Result (S : Types) (t e i : S.Code) where
  v : Option (Σ c : S.Code, S.El c)
  type : Kind

namespace Result

variable {S : Types} {t e i t' e' i' : S.Code} {σ : Type}

/-- `Result()`, `result.hpp:21`. -/
def empty : Result S t e i := ⟨none, .noValue⟩

/-- `Result(const T&)` and `Result(T&&)`, `result.hpp:29-30`. -/
def success (x : S.El t) : Result S t e i := ⟨some ⟨t, x⟩, .ok⟩

/-- `intermediary`, `result.hpp:32-33`. -/
def inter (x : S.El i) : Result S t e i := ⟨some ⟨i, x⟩, .intermediary⟩

/-- `failed`, `result.hpp:35-36`. -/
def fail (x : S.El e) : Result S t e i := ⟨some ⟨e, x⟩, .failed⟩

/-- `Result r(x)` for a variable `x` of type `T` that is not `const`. The forwarding constructor `result.hpp:41-42` (with `U = T&`) is a better match than
`Result(const T&)`; it takes part if `T` converts to `E` and differs from it. -/
def ofVariable (x : S.El t) : Result S t e i :=
  if e ≠ t then
    match S.conv t e with
    | some f => fail (f x)
    | none => success x
  else success x

/-- Copying a variable that is not `const`. The forwarding constructor `result.hpp:41-42` (with `U = Result&`) is a better match than the
copy constructor `result.hpp:23`; it takes part if a `Result`, by its `operator bool` of `result.hpp:48`, converts to `E`, and `E` is not `T`. -/
def copy (r : Result S t e i) : Result S t e i :=
  if e ≠ t then
    match S.ofBool e with
    | some f => fail (f (decide (r.type = .ok)))
    | none => r
  else r

/-- `_v && std::holds_alternative<Wrapper<c>>(*_v)`. -/
def holds (r : Result S t e i) (c : S.Code) : Bool :=
  match r.v with
  | none => false
  | some x => decide (x.1 = c)

/-- `std::get<Wrapper<c>>(*_v)`: undefined if there is no value, throws `std::bad_variant_access` if there is another alternative. -/
def get (r : Result S t e i) (c : S.Code) : Res (S.El c) :=
  match r.v with
  | none => .error .ub
  | some ⟨d, x⟩ => if h : d = c then .ok (h ▸ x) else .error .exception

/-- `is_success`, `is_intermediary`, `is_failed`, `operator bool`, `result.hpp:44-48`. -/
def isSuccess (r : Result S t e i) : Bool := decide (r.type = .ok)
def isIntermediary (r : Result S t e i) : Bool := decide (r.type = .intermediary)
def isFailed (r : Result S t e i) : Bool := decide (r.type = .failed)

/-- `error_value`, `unwrap_error_value`, `result.hpp:50-54`, `:68-72`. -/
def errorValue (b : Build) (r : Result S t e i) : Res (S.El e) := do
  spnAssert b r.isFailed
  spnAssert b (r.holds e)
  r.get e

/-- `intermediary_value`, `unwrap_intermediary_value`, `result.hpp:56-60`, `:74-78`. -/
def intermediaryValue (b : Build) (r : Result S t e i) : Res (S.El i) := do
  spnAssert b r.isIntermediary
  spnAssert b (r.holds i)
  r.get i

/-- `value`, `operator->`, `operator*`, `result.hpp:62-66`, `:86-87`. -/
def value (b : Build) (r : Result S t e i) : Res (S.El t) := do
  spnAssert b r.isSuccess
  spnAssert b (r.holds t)
  r.get t

/-- `unwrap`, `result.hpp:80-84`. -/
def unwrap (b : Build) (r : Result S t e i) : Res (S.El t) := do
  spnAssert b (r.isSuccess || r.isIntermediary)
  spnAssert b (r.holds t)
  r.get t

/-- `intermediary_value_mut`, `result.hpp:170-173`. -/
def intermediaryValueMut (b : Build) (r : Result S t e i) : Res (S.El i) := do
  spnAssert b r.isIntermediary
  r.get i

/-- `chain`, `result.hpp:91-99`; `return *this` copies an object that is not `const`. -/
def chain (b : Build) (r : Result S t e i) (func : S.El i → σ → Res (Result S t e i × σ)) (w : σ) : Res (Result S t e i × σ) :=
  if r.isFailed || r.isSuccess then .ok (r.copy, w)
  else do func (← r.intermediaryValueMut b) w

/-- `r.chain(f1).chain(f2)...`. -/
def chains (b : Build) : Result S t e i → List (S.El i → σ → Res (Result S t e i × σ)) → σ → Res (Result S t e i × σ)
  | r, [], w => .ok (r, w)
  | r, f :: fs, w => do
    let (r, w) ← r.chain b f w
    chains b r fs w

/-- `map`, `result.hpp:102-108`. -/
def map (b : Build) (r : Result S t e i) (func : S.El t → Res (S.El t')) : Res (Result S t' e i) :=
  if r.isSuccess then do return success (← func (← r.value b))
  else if r.isFailed then do return fail (← r.errorValue b)
  else if r.isIntermediary then do return inter (← r.intermediaryValue b)
  else .ok empty

/-- `map_error`, `result.hpp:111-117`. -/
def mapError (b : Build) (r : Result S t e i) (func : S.El e → Res (S.El e')) : Res (Result S t e' i) :=
  if r.isFailed then do return fail (← func (← r.errorValue b))
  else if r.isSuccess then do return success (← r.value b)
  else if r.isIntermediary then do return inter (← r.intermediaryValue b)
  else .ok empty

/-- `map_intermediary`, `result.hpp:120-126`. -/
def mapIntermediary (b : Build) (r : Result S t e i) (func : S.El i → Res (S.El i')) : Res (Result S t e i') :=
  if r.isIntermediary then do return inter (← func (← r.intermediaryValue b))
  else if r.isSuccess then do return success (← r.value b)
  else if r.isFailed then do return fail (← r.errorValue b)
  else .ok empty

/-- `and_then`, `result.hpp:129-135`. -/
def andThen (b : Build) (r : Result S t e i) (func : S.El t → Res (Result S t' e i)) : Res (Result S t' e i) :=
  if r.isSuccess then do func (← r.value b)
  else if r.isFailed then do return fail (← r.errorValue b)
  else if r.isIntermediary then do return inter (← r.intermediaryValue b)
  else .ok empty

/-- `or_else`, `result.hpp:138-144`. -/
def orElse (b : Build) (r : Result S t e i) (func : S.El e → Res (Result S t e' i)) : Res (Result S t e' i) :=
  if r.isFailed then do func (← r.errorValue b)
  else if r.isSuccess then do return success (← r.value b)
  else if r.isIntermediary then do return inter (← r.intermediaryValue b)
  else .ok empty

/-- `match`, `result.hpp:147-151`. -/
def cases {α : Type} (b : Build) (r : Result S t e i) (onSuccess : S.El t → Res α) (onError : S.El e → Res α) (onIntermediary : S.El i → Res α) : Res α :=
  if r.isSuccess then do onSuccess (← r.value b)
  else if r.isIntermediary then do onIntermediary (← r.intermediaryValue b)
  else do onError (← r.errorValue b)

/-- `value_or`, `result.hpp:153-156`. -/
def valueOr (b : Build) (r : Result S t e i) (x : S.El t) : Res (S.El t) := if r.isSuccess then r.value b else .ok x

/-- `error_or`, `result.hpp:158-161`. -/
def errorOr (b : Build) (r : Result S t e i) (x : S.El e) : Res (S.El e) := if r.isFailed then r.errorValue b else .ok x

/-- `unwrap_or_else`, `result.hpp:164-167`. -/
def unwrapOrElse (b : Build) (r : Result S t e i) (fallback : Unit → Res (S.El t)) : Res (S.El t) :=
  if r.isSuccess then r.value b else fallback ()

end Result
end Spine

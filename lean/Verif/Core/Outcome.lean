/-!
# Outcomes of C++ calls

Every modelled call returns `Res α`: a value, or a `Fault`.  Nothing in the model turns a fault into a
default value, so a theorem saying that a call equals `.ok _` also says that the call has no undefined
behaviour, no failing assertion and no exception.
-/

namespace Spine

/-- How a call can fail to return normally. -/
inductive Fault
  /-- C++ undefined behaviour: out-of-bounds access, null dereference, division of an integer by zero,
  reading an empty `std::optional`, conversion of a float that does not fit, ... -/
  | ub
  /-- An `spn_assert` failed (`/repo/src/spine/core/debugging.hpp:22-28`, debug builds only).
  It calls `spn::throw_exception`, which runs the installed handler and then `HAL::halt`
  (`/repo/src/spine/core/exception.cpp`).  On Arduino and Zephyr `halt` does not return.  The mock's
  `halt` does return, after which the code goes on exactly as a release build would; that
  behaviour is the `Build.release` case. -/
  | assertFailed
  /-- `spn::throw_exception` called outside an assert, or a C++ exception thrown by the standard
  library (`std::out_of_range`, `std::invalid_argument`, `std::bad_variant_access`, ...). -/
  | exception
  /-- Not an outcome of the code: the iteration bound given to a modelled `while` loop was used up.
  A theorem that a call with bound `fuel` is `.ok _` says that the loop ends within `fuel` iterations. -/
  | fuel
  deriving DecidableEq, Repr

/-- The result of a modelled call. -/
abbrev Res (α : Type _) := Except Fault α

/-- `DEBUG_SPINE` defined or not (`/repo/src/spine/core/debugging.hpp:17-50`). -/
inductive Build
  | debug
  | release
  deriving DecidableEq, Repr

/-- `spn_assert(c)` (`/repo/src/spine/core/debugging.hpp:22-28` and `:41-43`): checked in debug builds,
nothing in release builds.  The message logged before the failure is not modelled. -/
def spnAssert (b : Build) (c : Bool) : Res Unit :=
  match b with
  | .release => .ok ()
  | .debug => if c then .ok () else .error .assertFailed

@[simp] theorem res_bind_ok {α β : Type _} (a : α) (f : α → Res β) : (Except.ok a >>= f : Res β) = f a := rfl
@[simp] theorem res_bind_error {α β : Type _} (e : Fault) (f : α → Res β) :
    (Except.error e >>= f : Res β) = .error e := rfl
@[simp] theorem res_pure {α : Type _} (a : α) : (pure a : Res α) = .ok a := rfl

/-- Read the `i`-th element of a block of memory. Outside the block: undefined behaviour. -/
def rd {α} (m : List α) (i : Nat) : Res α :=
  match m[i]? with
  | some a => .ok a
  | none => .error .ub

/-- Write the `i`-th element of a block of memory. Outside the block: undefined behaviour. -/
def wr {α} (m : List α) (i : Nat) (v : α) : Res (List α) :=
  if i < m.length then .ok (m.set i v) else .error .ub

/-- `a % b` on unsigned integers; a zero divisor is undefined behaviour. -/
def umod (a b : Nat) : Res Nat :=
  if b = 0 then .error .ub else .ok (a % b)

/-- The number of values of `size_t`, which is 32 or 64 bits wide: Lean leaves open which of the two `USize.size` is. -/
def sizeMod : Nat := USize.size

theorem sizeMod_eq : sizeMod = 2 ^ 32 ∨ sizeMod = 2 ^ 64 := by
  have := USize.size_eq
  unfold sizeMod
  omega

theorem sizeMod_ge : 2 ^ 32 ≤ sizeMod := by
  have := sizeMod_eq
  omega

theorem lt_sizeMod {n : Nat} (h : n < 2 ^ 32) : n < sizeMod := Nat.lt_of_lt_of_le h sizeMod_ge

theorem sizeMod_pos : 0 < sizeMod := Nat.lt_of_lt_of_le (by decide) sizeMod_ge

/-- `a - b` on `size_t` (for operands below `sizeMod`), which wraps around. -/
def usub (a b : Nat) : Nat := if b ≤ a then a - b else a + sizeMod - b

/-- `a + b` on `size_t`, which wraps around. (The case of small numbers is stated separately so that it can be computed.) -/
def uadd (a b : Nat) : Nat := if a + b < 2 ^ 32 then a + b else (a + b) % sizeMod

theorem uadd_eq (a b : Nat) : uadd a b = (a + b) % sizeMod := by
  unfold uadd
  split
  · rw [Nat.mod_eq_of_lt (Nat.lt_of_lt_of_le ‹_› sizeMod_ge)]
  · rfl

@[simp] theorem spnAssert_true (b : Build) : spnAssert b true = .ok () := by cases b <;> rfl
@[simp] theorem spnAssert_release (c : Bool) : spnAssert .release c = .ok () := by cases c <;> rfl
@[simp] theorem spnAssert_debug_false : spnAssert .debug false = .error .assertFailed := rfl

end Spine

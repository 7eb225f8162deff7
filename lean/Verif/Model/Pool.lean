import Verif.Model.Vector
/-!
# Models of `spn::structure::Pool<T>` and `spn::structure::Stack<T>`

`/repo/src/spine/structure/pool.hpp` and `/repo/src/spine/structure/stack.hpp`, both on the vector model.

A pool keeps `std::shared_ptr`s to objects named by `ω` (`none` is the null pointer).  A reference count is what
the slots of the vector own, read off the log of element operations the vector ran, plus the handles held by
the rest of the program, `outside`.
-/

namespace Spine

variable {ω : Type}

/-- References to object `o` owned by the slots of a vector. -/
def slotRefs [DecidableEq ω] (o : ω) : List (Ev (Option ω)) → Int
  | [] => 0
  | .copied p :: log => slotRefs o log + if p = some o then 1 else 0
  | .destroyed p :: log => slotRefs o log - if p = some o then 1 else 0
  | .taken p :: log => slotRefs o log - if p = some o then 1 else 0

/-- `Pool`, `pool.hpp:83-87`, together with the handles held by the rest of the program. -/
structure Pool (ω : Type) where
  /-- `_pointers` -/
  vec : Vec (Option ω)
  /-- `_lookup_index`, a `uint16_t` -/
  lookup : Nat
  /-- handles outside the pool, per object -/
  outside : ω → Nat

namespace Pool

variable [DecidableEq ω]

/-- `Pool(size)`, `pool.hpp:17`. -/
def create (size : Nat) (outside : ω → Nat) : Pool ω :=
  { vec := Vec.create (sharedPtr ω) size, lookup := 0, outside }

/-- `size()`, `pool.hpp:81`. -/
def size (p : Pool ω) : Nat := p.vec.size

/-- `is_fully_populated()`, `pool.hpp:62`. -/
def isFullyPopulated (p : Pool ω) : Bool := p.vec.full

/-- `use_count()` of a pointer. -/
def useCount (p : Pool ω) : Option ω → Int
  | none => 0
  | some o => slotRefs o p.vec.log + p.outside o

/-- The rest of the program gets one more handle. -/
def gain (p : Pool ω) : Option ω → Pool ω
  | none => p
  | some o => { p with outside := fun x => if x = o then p.outside x + 1 else p.outside x }

/-- The rest of the program drops a handle (which it has). -/
def release (p : Pool ω) (o : ω) : Pool ω :=
  { p with outside := fun x => if x = o then p.outside x - 1 else p.outside x }

/-- `populate`, `pool.hpp:38-53`, all three overloads: `emplace_back` copies the pointer, the temporary goes
away. -/
def populate (b : Build) (p : Pool ω) (o : ω) : Res (Pool ω) := do
  spnAssert b (!p.vec.full)
  let vec ← p.vec.emplaceBack b (sharedPtr ω) (some o)
  return { p with vec }

/-- `depopulate`, `pool.hpp:56-59`; the caller takes over the pointer. -/
def depopulate (b : Build) (p : Pool ω) : Res (Option ω × Pool ω) := do
  spnAssert b (!p.vec.empty)
  let (x, vec) ← p.vec.popFront b (sharedPtr ω) true
  return (x, gain { p with vec } x)

/-- The first loop of `acquire`, `pool.hpp:69-71`, for at most `fuel` rounds: the free pointer found, if
any, and the pool with its moved `_lookup_index`. -/
def scanBack (b : Build) (p : Pool ω) : Nat → Res (Option (Option ω) × Pool ω)
  | 0 => .error .fuel
  | fuel + 1 =>
    if p.lookup < p.vec.size then do
      let x ← p.vec.get b p.lookup
      if p.useCount x = 1 then return (some x, p)
      else scanBack b { p with lookup := (p.lookup + 1) % 2 ^ 16 } fuel
    else return (none, p)

/-- The second loop of `acquire`, `pool.hpp:73-76`. -/
def scanFront (b : Build) (p : Pool ω) (skipped i : Nat) : Nat → Res (Option (Option ω))
  | 0 => .error .fuel
  | fuel + 1 =>
    if i < skipped ∧ i < p.vec.size then do
      let x ← p.vec.get b i
      if p.useCount x = 1 then return some x
      else scanFront b p skipped (i + 1) fuel
    else return none

/-- `acquire`, `pool.hpp:65-78`; `fuel` bounds the rounds of each loop. -/
def acquire (b : Build) (p : Pool ω) (fuel : Nat) : Res (Option ω × Pool ω) := do
  spnAssert b p.isFullyPopulated
  let skipped := p.lookup
  let (found, p) ← p.scanBack b fuel
  match found with
  | some x => return (x, p.gain x)
  | none =>
    let p := { p with lookup := 0 }
    let found ← p.scanFront b skipped 0 fuel
    match found with
    | some x => return (x, p.gain x)
    | none => return (none, p)

/-- The loop of `~Pool`, `pool.hpp:19-20`, for at most `fuel` rounds.  `depopulate().reset()` clears the popped
slot, which is the same as taking the pointer over and dropping it. -/
def destroyLoop (b : Build) (p : Pool ω) (i : Nat) : Nat → Res (Pool ω)
  | 0 => .error .fuel
  | fuel + 1 =>
    if i < p.vec.size then do
      let (x, p) ← p.depopulate b
      let p := match x with
        | some o => p.release o
        | none => p
      destroyLoop b p (i + 1) fuel
    else return p

/-- `~Pool`, `pool.hpp:18-22`, then the implicit `~Vector`, which frees the block without running element
destructors (`array.hpp:148-154`).  The result holds the final reference counts. -/
def destroy (b : Build) (p : Pool ω) (fuel : Nat) : Res (Pool ω) := do
  let p ← p.destroyLoop b 0 fuel
  spnAssert b p.vec.empty
  return p

end Pool

/-! ## Stack -/

/-- `Stack`, `stack.hpp:36-37`.  (As written the class cannot be instantiated: its constructor does not construct the
base class `Vector<T>`, which has no default constructor.  The model describes the member functions, all of which
use `store` only.) -/
structure Stk (α : Type) where
  store : Vec α

namespace Stk

variable {α : Type}

/-- `Stack(size)`, `stack.hpp:13`. -/
def create (e : Elem α) (size : Nat) : Stk α := ⟨Vec.create e size⟩

/-- `emplace(element)` and `push(element)`, `stack.hpp:16` and `:28`; `emplace_back` copies. -/
def push (b : Build) (e : Elem α) (s : Stk α) (x : α) : Res (Stk α) := do
  return ⟨← s.store.emplaceBack b e x⟩

/-- `pop()`, `stack.hpp:19`: the reference returned by `pop_back` is ignored. -/
def pop (b : Build) (e : Elem α) (s : Stk α) : Res (Stk α) := do
  let (_, store) ← s.store.popBack b e false
  return ⟨store⟩

/-- `top()`, `stack.hpp:22-25`. -/
def top (b : Build) (s : Stk α) : Res α := s.store.peekBack b

/-- `size()`, `stack.hpp:31`. -/
def size (s : Stk α) : Nat := s.store.size

/-- `empty()`, `stack.hpp:34`. -/
def empty (s : Stk α) : Bool := s.store.empty

end Stk
end Spine

import Verif.Model.Pool
/-!
# Model of copies of a pool

`/repo/src/spine/structure/pool.hpp:23-35`. The copy constructor and both assignments copy `_pointers` and `_lookup_index`. `_pointers` is a `Vector`, whose copy is an
`Array` copy (`array.hpp:156-160`): it points to the same block of slots, and does not free it. `Pool` declares a copy constructor and no move constructor, so
`Pool q(std::move(p))` is a copy as well.

Here one block of slots is shared by the pool that allocated it and its copies. Each has its own window and its own `_lookup_index`; the references the slots own and the
handles of the rest of the program are common. The operations of one pool are those of `Verif/Model/Pool.lean`, run on the shared block.

Simplification: a call other than the destructor on a pool whose block was freed is undefined behaviour even if it happens to read no slot. Assignment (`pool.hpp:24-35`) to a
pool that has a block of its own, which is never freed then (C67), is left out.
-/

namespace Spine

variable {ω : Type}

/-- The members that each copy has for itself. -/
structure PoolView where
  /-- `m_head` and `m_tail` of `_pointers`, `vector.hpp:96-97` -/
  head : Nat
  tail : Nat
  /-- `_lookup_index`, `pool.hpp:87` -/
  lookup : Nat
  /-- `m_store_is_internal` of `_pointers`, `array.hpp:115` -/
  owner : Bool
  deriving DecidableEq, Repr

/-- A pool and its copies, named by numbers. -/
structure Pools (ω : Type) where
  /-- the block of slots -/
  store : List (Option ω)
  /-- `free` was called on the block -/
  freed : Bool
  /-- the element operations run on the slots (ghost) -/
  log : List (Ev (Option ω))
  /-- handles outside the pools, per object -/
  outside : ω → Nat
  /-- the pools that exist -/
  views : Nat → Option PoolView

namespace Pools

variable [DecidableEq ω]

/-- The pool `h` as a pool of its own. -/
def pool (s : Pools ω) (v : PoolView) : Pool ω :=
  { vec := { store := s.store, head := v.head, tail := v.tail, log := s.log }, lookup := v.lookup, outside := s.outside }

/-- What a call on the pool `h` left behind. -/
def put (s : Pools ω) (h : Nat) (v : PoolView) (p : Pool ω) : Pools ω :=
  { s with store := p.vec.store, log := p.vec.log, outside := p.outside,
           views := fun k => if k = h then some { v with head := p.vec.head, tail := p.vec.tail, lookup := p.lookup } else s.views k }

/-- The one pool that allocated the block. -/
def single (h : Nat) (p : Pool ω) : Pools ω :=
  { store := p.vec.store, freed := false, log := p.vec.log, outside := p.outside,
    views := fun k => if k = h then some ⟨p.vec.head, p.vec.tail, p.lookup, true⟩ else none }

/-- A pool that exists; using another one is undefined behaviour. -/
def view (s : Pools ω) (h : Nat) : Res PoolView :=
  match s.views h with
  | some v => .ok v
  | none => .error .ub

/-- `Pool(const Pool&)`, `pool.hpp:23`. -/
def copy (s : Pools ω) (h other : Nat) : Res (Pools ω) := do
  let v ← s.view other
  return { s with views := fun k => if k = h then some { v with owner := false } else s.views k }

/-- `acquire` on the pool `h`, `pool.hpp:65-78`. -/
def acquire (b : Build) (s : Pools ω) (h fuel : Nat) : Res (Option ω × Pools ω) := do
  let v ← s.view h
  if s.freed then .error .ub
  else do
    let r ← (s.pool v).acquire b fuel
    return (r.1, s.put h v r.2)

/-- `size` of the pool `h`, `pool.hpp:81`. -/
def size (s : Pools ω) (h : Nat) : Res Nat := do
  let v ← s.view h
  return (s.pool v).size

/-- `~Pool`, `pool.hpp:18-22`, then `~Array`, `array.hpp:148-154`, of the pool `h`. -/
def destroy (b : Build) (s : Pools ω) (h fuel : Nat) : Res (Pools ω) := do
  let v ← s.view h
  if s.freed ∧ (s.pool v).size ≠ 0 then .error .ub
  else do
    let p ← (s.pool v).destroy b fuel
    let s := s.put h v p
    return { s with freed := s.freed || v.owner, views := fun k => if k = h then none else s.views k }

/-- The rest of the program gets one more handle. -/
def gain (s : Pools ω) (o : ω) : Pools ω := { s with outside := fun x => if x = o then s.outside x + 1 else s.outside x }

/-- The rest of the program drops a handle (which it has). -/
def release (s : Pools ω) (o : ω) : Pools ω := { s with outside := fun x => if x = o then s.outside x - 1 else s.outside x }

/-- References to an object: those of the slots and those of the rest of the program. The object is deleted when there are none left. -/
def refs (s : Pools ω) (o : ω) : Int := slotRefs o s.log + s.outside o

end Pools
end Spine

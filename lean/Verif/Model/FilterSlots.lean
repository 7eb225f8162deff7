import Verif.Model.Filter

namespace Spine

/-- What `std::vector` leaves to the implementation: the greatest possible number of elements, how much `reserve(n)` allocates for, and to how much the storage grows
when an element is added to `n` elements filling it. The standard asks for room for the elements; no machine with Spine is so small that 255 pointers do not fit. -/
structure StdVector where
  maxSize : Nat
  reserved : Nat → Nat
  grown : Nat → Nat
  le_reserved : ∀ n, n ≤ reserved n
  lt_grown : ∀ n, n < grown n
  bytes : 255 < maxSize

/-- The storage of `filter::Stack`, `filterstack.hpp:61`: the filters, the elements there is room for, how often memory has been allocated. -/
structure FilterSlots (F : Type) where
  filters : FilterStack F
  capacity : Nat
  allocations : Nat

namespace FilterSlots
variable {F : Type} (v : StdVector)

/-- `Stack(number_of_filters)`, `filterstack.hpp:16`: `reserve` allocates if there is not enough room, i.e. for every number but 0. -/
def create (n : UInt8) : FilterSlots F :=
  if n.toNat = 0 then ⟨[], 0, 0⟩ else ⟨[], v.reserved n.toNat, 1⟩

/-- `attach_filter`, `filterstack.hpp:19-22`: `spn_expect` only logs; `emplace_back` allocates when the storage is full. -/
def attach (s : FilterSlots F) (f : Option (Filter F)) : FilterSlots F :=
  if s.filters.length < v.maxSize then
    if s.filters.length < s.capacity then { s with filters := s.filters.attach f }
    else ⟨s.filters.attach f, v.grown s.filters.length, s.allocations + 1⟩
  else s

/-- Attaching filters one after the other. -/
def attachAll (s : FilterSlots F) (fs : List (Option (Filter F))) : FilterSlots F := fs.foldl (attach v) s

/-- `filter_slots()`, `filterstack.hpp:54`. -/
def slots (_ : FilterSlots F) : Nat := v.maxSize

/-- `filter_slots_occupied()`, `filterstack.hpp:57`. -/
def occupied (s : FilterSlots F) : Nat := s.filters.length

end FilterSlots
end Spine

import Verif.Model.FilterSlots

/-! C172: the slots of a filter stack. -/

namespace Spine
namespace FilterSlots
variable {F : Type} {v : StdVector}

/-- libstdc++ on a machine with 64 bits: `reserve` allocates for what is asked for, a full storage doubles. -/
def libstdcxx : StdVector where
  maxSize := 2 ^ 60 - 1
  reserved := id
  grown n := max 1 (2 * n)
  le_reserved n := Nat.le_refl n
  lt_grown n := by omega
  bytes := by decide

private theorem attachAll_filters (fs : List (Option (Filter F))) : ∀ (s : FilterSlots F), s.filters.length ≤ v.maxSize →
    (attachAll v s fs).filters = List.take v.maxSize (s.filters ++ fs) := by
  induction fs with
  | nil => intro s hs; simp only [attachAll, List.foldl_nil, List.append_nil]; exact (List.take_of_length_le hs).symm
  | cons f fs ih =>
    intro s hs
    have hstep : attachAll v s (f :: fs) = attachAll v (attach v s f) fs := rfl
    rw [hstep]
    by_cases h : s.filters.length < v.maxSize
    · have hf : (attach v s f).filters = s.filters ++ [f] := by
        simp only [attach, h, if_true, FilterStack.attach]; split <;> rfl
      rw [ih _ (by rw [hf, List.length_append]; exact h), hf, List.append_assoc]; rfl
    · have hf : attach v s f = s := by simp only [attach, h, if_false]
      have hl : s.filters.length = v.maxSize := by omega
      rw [hf, ih _ hs, List.take_append_of_le_length (by omega), List.take_append_of_le_length (by omega)]

private theorem create_filters (n : UInt8) : (create v n : FilterSlots F).filters = [] := by
  unfold create; split <;> rfl

private theorem create_capacity (n : UInt8) : n.toNat ≤ (create v n : FilterSlots F).capacity := by
  unfold create; split
  · rename_i h; simp [h]
  · exact v.le_reserved _

/-- **C172**, the part that holds for the filters: the occupied slots are the filters attached, all of them and in the order they were attached, up to `max_size()` of
the vector. Missing: that a stack has as many slots as it was constructed with. -/
theorem C172_occupied_partial (n : UInt8) {fs : List (Option (Filter F))} (h : fs.length ≤ v.maxSize) :
    (attachAll v (create v n) fs).filters = fs ∧ (attachAll v (create v n) fs).occupied = fs.length := by
  have := attachAll_filters (v := v) fs (create v n) (by simp [create_filters])
  rw [create_filters, List.nil_append, List.take_of_length_le h] at this
  exact ⟨this, by rw [occupied, this]⟩

private theorem attachAll_room (fs : List (Option (Filter F))) : ∀ (s : FilterSlots F), s.filters.length + fs.length ≤ s.capacity →
    (attachAll v s fs).allocations = s.allocations := by
  induction fs with
  | nil => intro s _; rfl
  | cons f fs ih =>
    intro s hs
    have hstep : attachAll v s (f :: fs) = attachAll v (attach v s f) fs := rfl
    rw [hstep]
    simp only [List.length_cons] at hs
    unfold attach
    split
    · rw [if_pos (by omega)]
      rw [ih _ (by simp only [FilterStack.attach, List.length_append, List.length_cons, List.length_nil]; omega)]
    · exact ih _ (by omega)

/-- **C172**, the part that holds for the memory: constructing a stack allocates at most once, and as many filters as it was constructed for are attached without any
further allocation. Missing: that a stack has as many slots as it was constructed with. -/
theorem C172_memory_partial (n : UInt8) {fs : List (Option (Filter F))} (h : fs.length ≤ n.toNat) :
    (create v n : FilterSlots F).allocations ≤ 1 ∧
      (attachAll v (create v n) fs).allocations = (create v n : FilterSlots F).allocations := by
  refine ⟨by unfold create; split <;> simp, attachAll_room fs _ ?_⟩
  rw [create_filters]
  have := create_capacity (F := F) (v := v) n
  simp only [List.length_nil]; omega

/-- **C172** is false: `filter_slots()` is never the number of slots the stack was constructed with, whatever that number is: it is `max_size()` of the vector, for every
stack the same. -/
theorem C172_slots_counterexample (n : UInt8) (fs : List (Option (Filter F))) :
    (attachAll v (create v n) fs).slots v ≠ n.toNat ∧ ∀ m : UInt8, (create v m : FilterSlots F).slots v = (create v n : FilterSlots F).slots v := by
  refine ⟨?_, fun _ => rfl⟩
  have := v.bytes
  have := n.toNat_lt
  simp only [slots]; omega

/-- **C172** is false: a filter more than the stack has been constructed for is attached all the same, for every number of slots. -/
theorem C172_beyond_counterexample (n : UInt8) {fs : List (Option (Filter F))} (h : fs.length = n.toNat) (f : Filter F) :
    (attach v (attachAll v (create v n) fs) (some f)).occupied = n.toNat + 1 := by
  have hb := v.bytes
  have hn := n.toNat_lt
  have := (C172_occupied_partial (v := v) n (fs := fs ++ [some f]) (by simp only [List.length_append, List.length_cons, List.length_nil]; omega)).2
  simpa [attachAll, List.foldl_append, h] using this

/-- Three filters in a stack for two with libstdc++: all three are attached, the third allocates a second time, and the stack reports 2^60 - 1 slots. -/
example : (attachAll libstdcxx (create libstdcxx 2) [some (Filter.passthrough (F := Rat)), some Filter.passthrough, some Filter.passthrough]).occupied = 3 ∧
    (attachAll libstdcxx (create libstdcxx 2) [some (Filter.passthrough (F := Rat)), some Filter.passthrough]).allocations = 1 ∧
    (attachAll libstdcxx (create libstdcxx 2) [some (Filter.passthrough (F := Rat)), some Filter.passthrough, some Filter.passthrough]).allocations = 2 ∧
    (create libstdcxx 2 : FilterSlots Rat).slots libstdcxx = 2 ^ 60 - 1 := ⟨rfl, rfl, rfl, rfl⟩

end FilterSlots
end Spine

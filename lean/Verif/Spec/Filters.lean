import Verif.Model.Filter
/-!
# Specification of the filters
-/

namespace Spine

variable {F : Type} [Arith F]

/-- `x` is in the band of a filter whose value is `v`: not further than the width from the middle. -/
def inBand (c : BandCfg F) (v x : F) : Bool :=
  let mid := if c.relative then Arith.add v c.offset else c.offset
  Arith.le (Arith.sub mid c.width) x && Arith.le x (Arith.add mid c.width)

/-- The state of a filter after some history from its construction. -/
def Band.Reachable (c : BandCfg F) (s : Band F) : Prop := ∃ ops, (Band.create c).run c ops = .ok s

/-- In exact arithmetic the band is a distance. -/
theorem inBand_rat {c : BandCfg Rat} {v x : Rat} : inBand c v x = true ↔ |x - ((if c.relative then v else 0) + c.offset)| ≤ c.width := by
  simp only [inBand, Arith.le, Arith.sub, Arith.add, Bool.and_eq_true, decide_eq_true_eq, abs_le]
  cases c.relative
  · simp only [Bool.false_eq_true, if_false, zero_add]
    constructor <;> rintro ⟨a, b⟩ <;> constructor <;> linarith
  · simp only [if_true]
    constructor <;> rintro ⟨a, b⟩ <;> constructor <;> linarith

/-- A filter object takes a series of samples, none of which throws, and returns the values listed. -/
inductive Filter.Feeds : Filter F → List F → Filter F → List F → Prop
  | nil (f : Filter F) : Feeds f [] f []
  | cons {f f1 f2 : Filter F} {x y : F} {xs ys : List F} : f.take x = .ok (f1, some y) → Feeds f1 xs f2 ys → Feeds f (x :: xs) f2 (y :: ys)

/-- The same for a stack. -/
inductive FilterStack.Feeds (b : Build) : FilterStack F → List F → FilterStack F → List F → Prop
  | nil (st : FilterStack F) : Feeds b st [] st []
  | cons {st st1 st2 : FilterStack F} {x y : F} {xs ys : List F} : FilterStack.take b st x = .ok (st1, some y) → Feeds b st1 xs st2 ys → Feeds b st (x :: xs) st2 (y :: ys)

/-- Composition of filters as functions on whole series: the first filter's series of results is the second one's series of samples. -/
inductive Through : List (Filter F) → List F → List (Filter F) → List F → Prop
  | nil (xs : List F) : Through [] xs [] xs
  | cons {f f' : Filter F} {fs fs' : List (Filter F)} {xs ys zs : List F} : f.Feeds xs f' ys → Through fs ys fs' zs → Through (f :: fs) xs (f' :: fs') zs

end Spine

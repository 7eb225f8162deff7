import Verif.Props.Filter
/-!
# C158: resetting filters
-/

namespace Spine

variable {F : Type} [Arith F]

/-- Readings through a stack; for each, what `value(sample)` returned (`none`: it threw), and the stack after them. -/
def FilterStack.readings (b : Build) (st : FilterStack F) : List F → Res (List (Option F) × FilterStack F)
  | [] => .ok ([], st)
  | x :: xs => do
    let (st1, y) ← FilterStack.take b st x
    let (ys, st2) ← FilterStack.readings b st1 xs
    return (y :: ys, st2)

/-- A filter made by one of the library's constructors that keeps nothing but an average or its last value. -/
inductive Plain : Filter F → Prop
  | ewma (k : F) : Plain (.ewma k)
  | mapped (c : MapCfg F) : Plain (.mapped c)
  | inverter (b : Build) (lo hi : F) : Plain (.inverter b lo hi)
  | passthrough : Plain .passthrough

/-- One of the library's filters, as constructed. -/
inductive Stock : Filter F → Prop
  | plain {f : Filter F} (h : Plain f) : Stock f
  | band (c : BandCfg F) : Stock (.band c)

namespace FilterReset

/-- Two stacks of the same filter objects, in possibly different states, all of which forget on a reset. -/
inductive Same : FilterStack F → FilterStack F → Prop
  | nil : Same [] []
  | cons {S : Type} {s s' : S} {step cur} {reset : S → F → S} {fs fs' : FilterStack F} (hf : ∀ s s' v, reset s v = reset s' v)
      (h : Same fs fs') : Same (some ⟨S, s, step, cur, reset⟩ :: fs) (some ⟨S, s', step, cur, reset⟩ :: fs')

theorem same_refl {fs : List (Filter F)} (h : ∀ f ∈ fs, Plain f) : Same (fs.map some) (fs.map some) := by
  induction fs with
  | nil => exact .nil
  | cons f fs ih =>
    refine .cons ?_ (ih fun g hg => h g (by simp [hg]))
    cases h f (by simp) <;> exact fun _ _ _ => rfl

theorem same_take {b : Build} {st st1 : FilterStack F} (h : Same st st1) : ∀ {x : F} {st2 : FilterStack F} {y : Option F},
    FilterStack.take b st1 x = .ok (st2, y) → Same st st2 := by
  induction h with
  | nil =>
    intro x st2 y e
    cases e
    exact .nil
  | @cons S s s' step cur reset fs fs' hf hsame ih =>
    intro x st2 y e
    rw [FilterStack.take, Filter.take] at e
    cases hs : step s' x with
    | error _ => simp only [hs] at e; cases e
    | ok r =>
      obtain ⟨s1, o⟩ := r
      simp only [hs, res_bind_ok] at e
      cases o with
      | none => cases e; exact .cons hf hsame
      | some o =>
        dsimp only at e
        cases e1 : FilterStack.take b fs' o with
        | error _ => rw [e1] at e; cases e
        | ok r =>
          rw [e1, res_bind_ok] at e
          cases e
          exact .cons hf (ih e1)

theorem same_reset {st st' : FilterStack F} (h : Same st st') (v : F) : FilterStack.resetTo st' v = FilterStack.resetTo st v := by
  induction h with
  | nil => rfl
  | @cons S s s' step cur reset fs fs' hf hsame ih =>
    simp only [FilterStack.resetTo, ih, Filter.resetTo]
    rw [hf s' s v]

theorem stock_reset {f : Filter F} (h : Stock f) {s : f.State} {v : F} : f.current (f.reset s v) = v := by
  cases h with
  | plain h => cases h <;> rfl
  | band c => rfl

/-- Readings change the states of a stack's filters, nothing else. -/
inductive Alike : List (Filter F) → FilterStack F → Prop
  | nil : Alike [] []
  | cons {f : Filter F} {s : f.State} {fs : List (Filter F)} {st : FilterStack F} (h : Alike fs st) :
      Alike (f :: fs) (some { f with state := s } :: st)

theorem alike_refl (fs : List (Filter F)) : Alike fs (fs.map some) := by
  induction fs with
  | nil => exact .nil
  | cons f fs ih => exact .cons (s := f.state) ih

theorem alike_take {b : Build} {fs : List (Filter F)} {st : FilterStack F} (h : Alike fs st) : ∀ {x : F} {st' : FilterStack F} {y : Option F},
    FilterStack.take b st x = .ok (st', y) → Alike fs st' := by
  induction h with
  | nil =>
    intro x st2 y e
    cases e
    exact .nil
  | @cons f s fs st hsame ih =>
    intro x st2 y e
    rw [FilterStack.take, Filter.take] at e
    cases hs : f.step s x with
    | error _ => simp only [hs] at e; cases e
    | ok r =>
      obtain ⟨s1, o⟩ := r
      simp only [hs, res_bind_ok] at e
      cases o with
      | none => cases e; exact .cons (s := s1) hsame
      | some o =>
        dsimp only at e
        cases e1 : FilterStack.take b st o with
        | error _ => rw [e1] at e; cases e
        | ok r =>
          rw [e1, res_bind_ok] at e
          cases e
          exact .cons (s := s1) (ih e1)

theorem alike_readings {b : Build} {fs : List (Filter F)} (xs : List F) : ∀ {st st' : FilterStack F} {ys : List (Option F)}, Alike fs st →
    FilterStack.readings b st xs = .ok (ys, st') → Alike fs st' := by
  induction xs with
  | nil => intro st st' ys h e; cases e; exact h
  | cons x xs ih =>
    intro st st' ys h e
    rw [FilterStack.readings] at e
    cases e1 : FilterStack.take b st x with
    | error _ => rw [e1] at e; cases e
    | ok r =>
      rw [e1, res_bind_ok] at e
      cases e2 : FilterStack.readings b r.1 xs with
      | error _ => simp only [e2] at e; cases e
      | ok q =>
        simp only [e2, res_bind_ok] at e
        cases e
        exact ih (alike_take h e1) e2

theorem alike_reset {fs : List (Filter F)} {st : FilterStack F} (h : Alike fs st) (v : F) :
    ∃ st', FilterStack.resetTo st v = .ok st' ∧ Alike fs st' ∧ (fs ≠ [] → (∀ f ∈ fs, Stock f) → FilterStack.value st' = .ok v) := by
  induction h with
  | nil => exact ⟨[], rfl, .nil, fun h => absurd rfl h⟩
  | @cons f s fs st hsame ih =>
    obtain ⟨st', e, h1, h2⟩ := ih
    refine ⟨some (Filter.resetTo { f with state := s } v) :: st', by rw [FilterStack.resetTo, e]; rfl, .cons (s := f.reset s v) h1, ?_⟩
    intro _ hst
    cases fs with
    | nil =>
      cases h1
      exact congrArg Except.ok (stock_reset (hst f (by simp)) (s := s))
    | cons g gs =>
      have := h2 (by simp) (fun k hk => hst k (by simp [hk]))
      cases h1 with
      | cons h1 =>
        rw [FilterStack.value, List.getLast?_cons_cons]
        exact this

end FilterReset

open FilterReset

/-- C158 for stacks without a band: whatever readings a stack has taken, exceptions included, `reset_to(v)` leaves it as it leaves the
stack that has taken none.  Missing: stacks with a `BandPass`, which keeps its count of rejections (`C158_band_counterexample`). -/
theorem C158_forgets_partial {b : Build} {fs : List (Filter F)} {xs : List F} {ys : List (Option F)} {st' : FilterStack F} {v : F}
    (hp : ∀ f ∈ fs, Plain f) (h : FilterStack.readings b (fs.map some) xs = .ok (ys, st')) :
    FilterStack.resetTo st' v = FilterStack.resetTo (fs.map some) v := by
  refine same_reset ?_ v
  have key : ∀ (xs : List F) (st st' : FilterStack F) (ys : List (Option F)), Same (fs.map some) st →
      FilterStack.readings b st xs = .ok (ys, st') → Same (fs.map some) st' := by
    intro xs
    induction xs with
    | nil => intro st st' ys hs e; cases e; exact hs
    | cons x xs ih =>
      intro st st' ys hs e
      rw [FilterStack.readings] at e
      cases e1 : FilterStack.take b st x with
      | error _ => rw [e1] at e; cases e
      | ok r =>
        rw [e1, res_bind_ok] at e
        cases e2 : FilterStack.readings b r.1 xs with
        | error _ => simp only [e2] at e; cases e
        | ok q =>
          simp only [e2, res_bind_ok] at e
          cases e
          exact ih _ _ _ (same_take hs e1) e2
  exact key xs _ _ _ (same_refl hp) h

/-- C158: `reset_to(v)` of a stack of the library's filters makes `value()` give `v`, whatever readings were taken. -/
theorem C158_value {b : Build} {fs : List (Filter F)} {xs : List F} {ys : List (Option F)} {st : FilterStack F} (v : F)
    (hp : ∀ f ∈ fs, Stock f) (hne : fs ≠ []) (h : FilterStack.readings b (fs.map some) xs = .ok (ys, st)) :
    ∃ st', FilterStack.resetTo st v = .ok st' ∧ FilterStack.value st' = .ok v := by
  obtain ⟨st', e, -, h2⟩ := alike_reset (alike_readings xs (alike_refl fs) h) v
  exact ⟨st', e, h2 hne hp⟩

/-- C158 for an average: the reset discards its value too, the next reading takes the value's place. -/
theorem C158_ewma {k v x : F} (s : Ewma F) (h0 : feq (fzero : F) fzero = true) : ((s.reset v).sample k x).value = x := by
  rw [Ewma.sample, Ewma.reset]
  simp only [h0, if_true]

example : feq (fzero : Fl) fzero = true ∧ feq (fzero : Rat) fzero = true := by decide +kernel

/-- C158 for a band that has just accepted a reading: after `reset_to(v)` it does with all further readings what a new one that was reset
to `v` does. -/
theorem C158_band_partial {c : BandCfg F} {s s1 : Band F} {x v : F} {ok : Bool} (h : Band.Reachable c s) (hv : feq s.value Band.unset = false)
    (hb : inBand c s.value x = true) (hs : s.sample c x = .ok (ok, s1)) (zs : List F) :
    ((s1.reset v).samples c zs).map Prod.fst = (((Band.create c).reset v).samples c zs).map Prod.fst := by
  obtain ⟨s', e, -, r, hi⟩ := (Band.sample_cases (Band.inv_reachable h) x).1 (by rwa [Band.base, hv])
  rw [hs] at e
  cases e
  cases zs with
  | nil => rfl
  | cons z zs =>
    have key : (s1.reset v).sample c z = ((Band.create c).reset v).sample c z := by
      have hr : (Band.create c).rejections = 0 := rfl
      by_cases hrel : c.relative = true
      · simp only [Band.sample, Band.reset, Band.updateLimits, hrel, if_true, hr, r]
        split <;> rfl
      · have hrel : c.relative = false := by simpa using hrel
        obtain ⟨l1, l2⟩ := hi.limits hrel
        obtain ⟨m1, m2⟩ := (Band.inv_create c).limits hrel
        simp only [Band.sample, Band.reset, hrel, Bool.false_eq_true, if_false, hr, r, l1, l2, m1, m2]
    rw [Band.samples, key, Band.samples]

example : ((Band.create narrow).samples narrow [0, 100, 5]).map (fun r => (r.1, r.2.rejections)) = .ok ([(true, 0), (true, 0), (true, 5)], 0) ∧
    ((Band.create narrow).samples narrow [0, 100, 5]).bind (fun r => ((r.2.reset 50).samples narrow [55, 5, 61, 64]).map Prod.fst) =
      .ok [(true, 55), (true, 55), (true, 61), (true, 64)] := by decide +kernel

/-- Percentage, then average. -/
def twoFilters : FilterStack Rat := [some (.mapped percent), some (.ewma 10)]

/-- Readings, a reset, and further readings: `value()` after the reset and what the further readings give. -/
def resetAmid (st : FilterStack Rat) (xs : List Rat) (v : Rat) (zs : List Rat) : Option (Res Rat × List (Option Rat)) :=
  match FilterStack.readings .debug st xs with
  | .error _ => none
  | .ok (_, st1) =>
    match FilterStack.resetTo st1 v with
    | .error _ => none
    | .ok st2 =>
      match FilterStack.readings .debug st2 zs with
      | .error _ => none
      | .ok (ys, _) => some (FilterStack.value st2, ys)

example : resetAmid twoFilters [3, 4] 7 [2, 3] = some (.ok 7, [some 0, some 25]) := by decide +kernel

/-- C158 is false for a band: it keeps its count of rejections. With a limit of 2, after two rejected readings and a reset to 0, the next
reading out of the band is accepted; a new filter that was reset to 0 rejects it. -/
theorem C158_band_counterexample : ((Band.create narrow).samples narrow [0, 100, 100]).bind (fun r => ((r.2.reset 0).samples narrow [100]).map Prod.fst) = .ok [(true, 100)] ∧
    (((Band.create narrow).reset 0).samples narrow [100]).map Prod.fst = .ok [(true, 0)] := by decide +kernel

/-- C158 for a stack resets every filter to the same number, also the ones that see mapped readings: after a reset to 3 V, a band behind a
percentage rejects what 3 V maps to. -/
theorem C158_scale_counterexample : resetAmid [some (.mapped percent), some (.band narrow)] [3] 3 [3] = some (.ok 3, [some 3]) ∧
    percent.map 3 = .ok (some 50) := by decide +kernel

end Spine

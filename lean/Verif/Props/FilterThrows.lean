import Verif.Props.FilterReset
/-!
# C170: readings that a filter refuses
-/

namespace Spine

variable {F : Type} [Arith F]

/-- One of the library's filters at any time of its life; a `BandPass` after its first sample. -/
inductive InUse : Filter F → Prop
  | plain {f : Filter F} (h : Plain f) (s : f.State) : InUse { f with state := s }
  | band (c : BandCfg F) (s : Band F) (h : feq s.value Band.unset = false) : InUse { Filter.band c with state := s }

/-- One of the library's filters that answers by the sample alone, at any time of its life. -/
inductive Memoryless : Filter F → Prop
  | mapped (c : MapCfg F) (v : F) : Memoryless { Filter.mapped c with state := v }
  | inverter (b : Build) (lo hi v : F) : Memoryless { Filter.inverter b lo hi with state := v }
  | passthrough (v : F) : Memoryless { (Filter.passthrough : Filter F) with state := v }

/-- What a series of readings gives its caller. -/
def FilterStack.answers (b : Build) (st : FilterStack F) (xs : List F) : Res (List (Option F)) :=
  (FilterStack.readings b st xs).map (·.1)

namespace FilterThrows

theorem answers_error {b : Build} {st : FilterStack F} {x : F} {xs : List F} {e : Fault} (h : FilterStack.take b st x = .error e) :
    FilterStack.answers b st (x :: xs) = .error e := by
  unfold FilterStack.answers
  rw [FilterStack.readings, h]
  rfl

theorem answers_ok {b : Build} {st st1 : FilterStack F} {x : F} {xs : List F} {y : Option F} (h : FilterStack.take b st x = .ok (st1, y)) :
    FilterStack.answers b st (x :: xs) = (FilterStack.answers b st1 xs).map (y :: ·) := by
  unfold FilterStack.answers
  rw [FilterStack.readings, h]
  simp only [res_bind_ok]
  cases FilterStack.readings b st1 xs with
  | error e => rfl
  | ok r => rfl

/-- What a `BandPass` sees when it looks at a sample. -/
def seen (c : BandCfg F) (s : Band F) (x : F) : Band F :=
  let s := if feq s.value Band.unset then s.reset x else s
  if c.relative then Band.updateLimits c s else s

theorem sample_seen (c : BandCfg F) (s : Band F) (x : F) : s.sample c x =
    if Arith.le (seen c s x).lower x && Arith.le x (seen c s x).upper then .ok (true, { seen c s x with value := x, rejections := 0 })
    else if -2 ^ 31 ≤ s.rejections + 1 ∧ s.rejections + 1 < 2 ^ 31 then
      if s.rejections + 1 > c.limit then
        if c.throws then .ok (false, { seen c s x with rejections := s.rejections + 1 })
        else .ok (true, { seen c s x with value := x, rejections := s.rejections + 1 })
      else .ok (true, { seen c s x with rejections := s.rejections + 1 })
    else .error .ub := by
  have hr : (seen c s x).rejections = s.rejections := by
    unfold seen; cases c.relative <;> cases feq s.value Band.unset <;> rfl
  have aux : ∀ u : Band F, (do
      if Arith.le u.lower x && Arith.le x u.upper then return (true, { u with value := x, rejections := 0 })
      else
        let v := { u with rejections := ← i32 (u.rejections + 1) }
        if v.rejections > c.limit then if c.throws then return (false, v) else return (true, { v with value := x })
        else return (true, v) : Res (Bool × Band F)) =
      if Arith.le u.lower x && Arith.le x u.upper then .ok (true, { u with value := x, rejections := 0 })
      else if -2 ^ 31 ≤ u.rejections + 1 ∧ u.rejections + 1 < 2 ^ 31 then
        if u.rejections + 1 > c.limit then
          if c.throws then .ok (false, { u with rejections := u.rejections + 1 })
          else .ok (true, { u with value := x, rejections := u.rejections + 1 })
        else .ok (true, { u with rejections := u.rejections + 1 })
      else .error .ub := by
    intro u
    split
    · rfl
    · unfold i32
      split
      · simp only [res_bind_ok, res_pure]
      · rfl
  rw [← hr]
  exact aux _

theorem seen_value {c : BandCfg F} {s : Band F} {x : F} (h : feq s.value Band.unset = false) : (seen c s x).value = s.value := by
  unfold seen
  rw [h]
  cases c.relative <;> rfl

/-- A library's filter that throws keeps its value. -/
theorem inUse_keeps {f : Filter F} (h : InUse f) {x : F} {s' : f.State} (e : f.step f.state x = .ok (s', none)) : f.current s' = f.value := by
  cases h with
  | plain h s =>
    cases h with
    | ewma k => cases e
    | mapped c =>
      simp only [Filter.mapped] at e
      cases hm : c.map x with
      | error _ => rw [hm] at e; cases e
      | ok y =>
        rw [hm, res_bind_ok] at e
        cases e
        rfl
    | inverter b lo hi =>
      simp only [Filter.inverter] at e
      cases hm : invert b lo hi x with
      | error _ => rw [hm] at e; cases e
      | ok y => rw [hm, res_bind_ok] at e; cases e
    | passthrough => cases e
  | band c s hs =>
    simp only [Filter.band] at e
    cases hm : s.sample c x with
    | error _ => rw [hm] at e; cases e
    | ok r =>
      obtain ⟨ok, t⟩ := r
      rw [hm, res_bind_ok] at e
      cases ok with
      | true => cases e
      | false =>
        cases e
        show t.value = s.value
        rw [sample_seen] at hm
        split at hm
        · cases hm
        · split at hm
          · split at hm
            · split at hm
              · cases hm
                exact seen_value hs
              · cases hm
            · cases hm
          · cases hm

/-- Two filter objects that differ only in a state that has no say in the answers. -/
inductive Twin : Filter F → Filter F → Prop
  | intro {S : Type} {step cur} {reset : S → F → S} (h : ∀ s s' x, (step s x).map (·.2) = (step s' x).map (·.2)) (s s' : S) :
      Twin ⟨S, s, step, cur, reset⟩ ⟨S, s', step, cur, reset⟩

theorem twin_self {f : Filter F} (h : Memoryless f) : Twin f f := by
  cases h with
  | mapped c v => exact .intro (fun s s' x => by simp only [Filter.mapped]; cases c.map x <;> rfl) _ _
  | inverter b lo hi v => exact .intro (fun s s' x => by simp only [Filter.inverter]) _ _
  | passthrough v => exact .intro (fun s s' x => rfl) _ _

/-- Two stacks that begin with twins and go on the same. -/
inductive Twins : FilterStack F → FilterStack F → Prop
  | rest (st : FilterStack F) : Twins st st
  | cons {f g : Filter F} {st st' : FilterStack F} (h : Twin f g) (hs : Twins st st') : Twins (some f :: st) (some g :: st')

theorem twins_take {b : Build} {st st' : FilterStack F} (h : Twins st st') : ∀ x,
    (∃ e, FilterStack.take b st x = .error e ∧ FilterStack.take b st' x = .error e) ∨
    ∃ t t' y, FilterStack.take b st x = .ok (t, y) ∧ FilterStack.take b st' x = .ok (t', y) ∧ Twins t t' := by
  induction h with
  | rest st =>
    intro x
    cases h : FilterStack.take b st x with
    | error e => exact .inl ⟨e, rfl, rfl⟩
    | ok r => exact .inr ⟨r.1, r.1, r.2, rfl, rfl, .rest _⟩
  | @cons f g st st' hf hs ih =>
    intro x
    cases hf with
    | @intro S step cur reset h s s' =>
      have := h s s' x
      simp only [FilterStack.take, Filter.take]
      cases h1 : step s x with
      | error e =>
        cases h2 : step s' x with
        | error e' => rw [h1, h2] at this; cases this; exact .inl ⟨e, rfl, rfl⟩
        | ok r => rw [h1, h2] at this; cases this
      | ok r =>
        cases h2 : step s' x with
        | error e' => rw [h1, h2] at this; cases this
        | ok r' =>
          obtain ⟨s1, y⟩ := r
          obtain ⟨s2, y'⟩ := r'
          have hy : y = y' := by rw [h1, h2] at this; cases this; rfl
          subst hy
          simp only [res_bind_ok]
          cases y with
          | none => exact .inr ⟨_, _, _, rfl, rfl, .cons (.intro h s1 s2) hs⟩
          | some y =>
            rcases ih y with ⟨e, a, c⟩ | ⟨t, t', z, a, c, d⟩
            · exact .inl ⟨e, by simp only [a, res_bind_error], by simp only [c, res_bind_error]⟩
            · exact .inr ⟨some ⟨S, s1, step, cur, reset⟩ :: t, some ⟨S, s2, step, cur, reset⟩ :: t', z, by simp only [a, res_bind_ok, res_pure], by simp only [c, res_bind_ok, res_pure], .cons (.intro h s1 s2) d⟩

theorem twins_answers {b : Build} (xs : List F) : ∀ {st st' : FilterStack F}, Twins st st' →
    FilterStack.answers b st xs = FilterStack.answers b st' xs := by
  induction xs with
  | nil => intro st st' _; rfl
  | cons x xs ih =>
    intro st st' h
    rcases twins_take (b := b) h x with ⟨e, a, c⟩ | ⟨t, t', y, a, c, d⟩
    · rw [answers_error a, answers_error c]
    · rw [answers_ok a, answers_ok c, ih d]

/-- Filters without a memory stay twins of what they were, and a stack whose first filters throw leaves the others alone. -/
theorem memoryless_take {b : Build} {rest : FilterStack F} (fs : List (Filter F)) (h : ∀ f ∈ fs, Memoryless f) : ∀ {x : F} {t : FilterStack F},
    FilterStack.take b (fs.map some) x = .ok (t, none) →
    FilterStack.take b (fs.map some ++ rest) x = .ok (t ++ rest, none) ∧ Twins (t ++ rest) (fs.map some ++ rest) := by
  induction fs with
  | nil => intro x t e; cases e
  | cons f fs ih =>
    intro x t e
    have hf := twin_self (h f (by simp))
    have hfs : ∀ g ∈ fs, Memoryless g := fun g hg => h g (by simp [hg])
    cases f with
    | mk S s step cur reset =>
      have h2 : ∀ s s' x, (step s x).map (·.2) = (step s' x).map (·.2) := by cases hf; assumption
      simp only [List.map_cons, List.cons_append, FilterStack.take, Filter.take] at e ⊢
      cases h1 : step s x with
      | error _ => rw [h1] at e; cases e
      | ok r =>
        obtain ⟨s1, y⟩ := r
        simp only [h1, res_bind_ok] at e ⊢
        cases y with
        | none =>
          cases e
          exact ⟨rfl, .cons (.intro h2 s1 s) (.rest _)⟩
        | some y =>
          dsimp only at e ⊢
          cases h3 : FilterStack.take b (fs.map some) y with
          | error _ => rw [h3] at e; cases e
          | ok r =>
            obtain ⟨t1, z⟩ := r
            rw [h3, res_bind_ok] at e
            cases e
            obtain ⟨a, d⟩ := ih hfs h3
            exact ⟨by simp only [a, res_bind_ok, res_pure, List.cons_append], .cons (.intro h2 s1 s) d⟩

/-- Two `BandPass` filters that answer the same for `n` samples: the same, or both past their limit of rejections. -/
structure Worn (c : BandCfg F) (n : Nat) (s s' : Band F) : Prop where
  value : s.value = s'.value
  limits : c.relative = false → s.lower = s'.lower ∧ s.upper = s'.upper
  count : s.rejections = s'.rejections ∨ (c.limit ≤ s.rejections ∧ c.limit ≤ s'.rejections ∧ -2 ^ 31 ≤ s.rejections + 1 ∧ -2 ^ 31 ≤ s'.rejections + 1 ∧
    s.rejections + n < 2 ^ 31 ∧ s'.rejections + n < 2 ^ 31)

theorem worn_sample {c : BandCfg F} (ht : c.throws = true) {n : Nat} {s s' : Band F} (h : Worn c (n + 1) s s') (x : F) :
    (∃ e, s.sample c x = .error e ∧ s'.sample c x = .error e) ∨
    ∃ ok t t', s.sample c x = .ok (ok, t) ∧ s'.sample c x = .ok (ok, t') ∧ Worn c n t t' := by
  obtain ⟨hv, hl, hc⟩ := h
  have e1 : (seen c s x).lower = (seen c s' x).lower ∧ (seen c s x).upper = (seen c s' x).upper ∧ (seen c s x).value = (seen c s' x).value := by
    unfold seen
    rw [← hv]
    cases hr : c.relative
    · obtain ⟨a, b⟩ := hl hr
      cases feq s.value Band.unset <;> simp [Band.reset, a, b, hv]
    · cases feq s.value Band.unset <;> simp [Band.reset, Band.updateLimits, hr, hv]
  obtain ⟨el, eu, ev⟩ := e1
  rw [sample_seen, sample_seen c s', ← el, ← eu]
  split
  · exact .inr ⟨true, _, _, rfl, rfl, rfl, fun _ => ⟨el, eu⟩, .inl rfl⟩
  · rcases hc with hc | ⟨h1, h2, h3, h4, h5, h6⟩
    · rw [← hc]
      split
      · split
        · exact .inr ⟨false, _, _, rfl, rfl, ev, fun _ => ⟨el, eu⟩, .inl rfl⟩
        · exact .inr ⟨true, _, _, rfl, rfl, ev, fun _ => ⟨el, eu⟩, .inl rfl⟩
      · exact .inl ⟨_, rfl, rfl⟩
    · push_cast at h5 h6
      have h7 : -2 ^ 31 ≤ s.rejections + 1 ∧ s.rejections + 1 < 2 ^ 31 := by omega
      have h8 : -2 ^ 31 ≤ s'.rejections + 1 ∧ s'.rejections + 1 < 2 ^ 31 := by omega
      have h9 : s.rejections + 1 > c.limit := by omega
      have h10 : s'.rejections + 1 > c.limit := by omega
      rw [if_pos h7, if_pos h8, if_pos h9, if_pos h10]
      refine .inr ⟨false, _, _, rfl, rfl, ev, fun _ => ⟨el, eu⟩, .inr ?_⟩
      dsimp only
      omega

theorem worn_answers {b : Build} {c : BandCfg F} (ht : c.throws = true) (xs : List F) : ∀ {s s' : Band F} {rest : FilterStack F}, Worn c xs.length s s' →
    FilterStack.answers b (some { Filter.band c with state := s } :: rest) xs =
      FilterStack.answers b (some { Filter.band c with state := s' } :: rest) xs := by
  induction xs with
  | nil => intros; rfl
  | cons x xs ih =>
    intro s s' rest h
    rcases worn_sample ht h x with ⟨e, a, d⟩ | ⟨ok, t, t', a, d, hw⟩
    · rw [answers_error (e := e), answers_error (e := e)]
      · simp only [FilterStack.take, Filter.take, Filter.band, d, res_bind_error]
      · simp only [FilterStack.take, Filter.take, Filter.band, a, res_bind_error]
    · cases ok with
      | false =>
        rw [answers_ok (st1 := some { Filter.band c with state := t } :: rest) (y := none),
          answers_ok (st1 := some { Filter.band c with state := t' } :: rest) (y := none), ih hw]
        · simp only [FilterStack.take, Filter.take, Filter.band, d, res_bind_ok, res_pure]
          rfl
        · simp only [FilterStack.take, Filter.take, Filter.band, a, res_bind_ok, res_pure]
          rfl
      | true =>
        cases hr : FilterStack.take b rest t.value with
        | error e =>
          rw [answers_error (e := e), answers_error (e := e)]
          · simp only [FilterStack.take, Filter.take, Filter.band, d, res_bind_ok, res_pure, if_true, ← hw.value, hr, res_bind_error]
          · simp only [FilterStack.take, Filter.take, Filter.band, a, res_bind_ok, res_pure, if_true, hr, res_bind_error]
        | ok r =>
          obtain ⟨rest', y⟩ := r
          rw [answers_ok (st1 := some { Filter.band c with state := t } :: rest') (y := y),
            answers_ok (st1 := some { Filter.band c with state := t' } :: rest') (y := y), ih hw]
          · simp only [FilterStack.take, Filter.take, Filter.band, d, res_bind_ok, res_pure, if_true, ← hw.value, hr]
          · simp only [FilterStack.take, Filter.take, Filter.band, a, res_bind_ok, res_pure, if_true, hr]

theorem value_kept {b : Build} (fs : List (Filter F)) (h : ∀ f ∈ fs, InUse f) : ∀ {x : F} {t : FilterStack F},
    FilterStack.take b (fs.map some) x = .ok (t, none) → FilterStack.value t = FilterStack.value (fs.map some) ∧ t.length = fs.length := by
  induction fs with
  | nil => intro x t e; cases e
  | cons f fs ih =>
    intro x t e
    have hk := fun {x s'} => inUse_keeps (h f (by simp)) (x := x) (s' := s')
    simp only [List.map_cons, FilterStack.take, Filter.take] at e
    cases h1 : f.step f.state x with
    | error _ => rw [h1] at e; cases e
    | ok r =>
      obtain ⟨s1, y⟩ := r
      simp only [h1, res_bind_ok] at e
      cases y with
      | none =>
        cases e
        refine ⟨?_, by simp⟩
        cases fs with
        | nil => exact congrArg Except.ok (hk h1)
        | cons g fs => simp [FilterStack.value, List.getLast?_cons_cons]
      | some y =>
        dsimp only at e
        cases h3 : FilterStack.take b (fs.map some) y with
        | error _ => rw [h3] at e; cases e
        | ok r =>
          obtain ⟨t1, z⟩ := r
          rw [h3, res_bind_ok] at e
          cases e
          obtain ⟨a, d⟩ := ih (fun g hg => h g (by simp [hg])) h3
          refine ⟨?_, by simp [d]⟩
          cases fs with
          | nil => cases h3
          | cons g fs =>
            cases t1 with
            | nil => simp at d
            | cons g' t1 =>
              simpa [FilterStack.value, List.getLast?_cons_cons] using a

end FilterThrows

/-- **C170** (`filterstack.hpp:31-41`, `bandpass.hpp:58-84`, `mapped_range.hpp:46-60`), partial: if one of the filters of a stack refuses a
reading with an exception, `value()` of the stack is what it was, for stacks of the library's filters at any time of their life. A
`BandPass` must have seen a sample before (`C170_first_counterexample`). -/
theorem C170_value_partial {b : Build} {fs : List (Filter F)} (h : ∀ f ∈ fs, InUse f) {x : F} {t : FilterStack F}
    (e : FilterStack.take b (fs.map some) x = .ok (t, none)) : FilterStack.value t = FilterStack.value (fs.map some) :=
  (FilterThrows.value_kept fs h e).1

/-- **C170**, partial: if filters without a memory of their own come first (`MappedRange`, `Invert`, `Passthrough`) and one of them refuses a
reading, every later series of readings gives exactly what it would have given without it, whatever filters follow. -/
theorem C170_memoryless_partial {b : Build} {fs : List (Filter F)} (h : ∀ f ∈ fs, Memoryless f) {x : F} {t : FilterStack F}
    (e : FilterStack.take b (fs.map some) x = .ok (t, none)) (rest : FilterStack F) :
    ∃ t', FilterStack.take b (fs.map some ++ rest) x = .ok (t', none) ∧
      ∀ zs, FilterStack.answers b t' zs = FilterStack.answers b (fs.map some ++ rest) zs :=
  ⟨_, (FilterThrows.memoryless_take fs h e).1, fun zs => FilterThrows.twins_answers zs (FilterThrows.memoryless_take fs h e).2⟩

/-- **C170**, partial: the same with a `BandPass` in front that has seen a sample, unless it refuses `2 ^ 31` readings in a row. -/
theorem C170_band_partial {b : Build} {c : BandCfg F} {s : Band F} (hs : feq s.value Band.unset = false) (hi : Band.Inv c s) {x : F} {s' : Band F}
    (e : s.sample c x = .ok (false, s')) (rest : FilterStack F) :
    FilterStack.take b (some { Filter.band c with state := s } :: rest) x = .ok (some { Filter.band c with state := s' } :: rest, none) ∧
      ∀ zs : List F, s.rejections + 1 + zs.length < 2 ^ 31 →
        FilterStack.answers b (some { Filter.band c with state := s' } :: rest) zs =
          FilterStack.answers b (some { Filter.band c with state := s } :: rest) zs := by
  constructor
  · simp only [FilterStack.take, Filter.take, Filter.band, e, res_bind_ok, res_pure]
    rfl
  · intro zs hz
    have hv := FilterThrows.seen_value (c := c) (x := x) hs
    have hlim : c.relative = false → (FilterThrows.seen c s x).lower = s.lower ∧ (FilterThrows.seen c s x).upper = s.upper := by
      intro hr
      unfold FilterThrows.seen
      rw [hr, hs]
      exact ⟨rfl, rfl⟩
    have h0 := hi.rejections
    rw [FilterThrows.sample_seen] at e
    split at e
    · cases e
    · split at e
      · split at e
        · split at e
          · rename_i ht
            cases e
            refine FilterThrows.worn_answers ht zs ⟨hv, hlim, .inr ?_⟩
            dsimp only
            omega
          · cases e
        · cases e
      · cases e

/-- **C170**, counterexample: a `BandPass` with a fixed band and no tolerance for rejections takes the very first reading for its value before
it refuses it: from then on `value()` is the refused reading. -/
theorem C170_first_counterexample {b : Build} {c : BandCfg F} (hr : c.relative = false) (ht : c.throws = true) (hl : c.limit = 0)
    (hu : feq (Band.unset : F) Band.unset = true) {x : F} (hx : (Arith.le (Arith.sub c.offset c.width) x && Arith.le x (Arith.add c.offset c.width)) = false) :
    FilterStack.value [some (Filter.band c)] = .ok Band.unset ∧
      ∃ t, FilterStack.take b [some (Filter.band c)] x = .ok (t, none) ∧ FilterStack.value t = .ok x := by
  have hs : (Band.create c).sample c x = .ok (false, { Band.create c with value := x, rejections := 1 }) := by
    rw [FilterThrows.sample_seen]
    have : FilterThrows.seen c (Band.create c) x = { Band.create c with value := x } := by
      unfold FilterThrows.seen
      rw [hr]
      show (if false = true then _ else if feq (Band.unset : F) Band.unset = true then _ else _) = _
      rw [hu]
      rfl
    rw [this]
    have h1 : ({ Band.create c with value := x } : Band F).lower = Arith.sub c.offset c.width := by simp [Band.create, Band.updateLimits, hr]
    have h2 : ({ Band.create c with value := x } : Band F).upper = Arith.add c.offset c.width := by simp [Band.create, Band.updateLimits, hr]
    have h3 : (Band.create c).rejections = 0 := rfl
    rw [h1, h2, hx, h3, hl, ht]
    simp
  refine ⟨rfl, [some { Filter.band c with state := { Band.create c with value := x, rejections := 1 } }], ?_, rfl⟩
  simp only [FilterStack.take, Filter.take, Filter.band, hs, res_bind_ok, res_pure]
  rfl

/-- **C170**, counterexample: an average in front of the filter that refuses has already taken the reading. Here readings of 10 go through an
`EWMA` and a `MappedRange` for 0 to 100; after one reading of 1000, which is refused, the next reading of 10 is refused as well. -/
theorem C170_average_counterexample {b : Build} :
    FilterStack.answers b [some (Filter.ewma (F := Rat) 4), some (Filter.mapped ⟨0, 100, 0, 1, true⟩)] [10, 10] = .ok [some (1 / 10), some (1 / 10)] ∧
    FilterStack.answers b [some (Filter.ewma (F := Rat) 4), some (Filter.mapped ⟨0, 100, 0, 1, true⟩)] [10, 1000, 10] = .ok [some (1 / 10), none, none] := by
  cases b <;> decide +kernel

/-- The hypotheses can be met: a `MappedRange` that refuses, in front of an average; a `BandPass` that refuses. -/
example : ∃ t, FilterStack.take .debug ([{ Filter.mapped (F := Rat) ⟨0, 100, 0, 1, true⟩ with state := (1 / 2 : Rat) }].map some) 1000 = .ok (t, none) := ⟨_, rfl⟩

example : Band.sample (F := Rat) ⟨false, 10, 0, 0, true⟩ ⟨5, -10, 10, 0⟩ 50 = .ok (false, ⟨5, -10, 10, 1⟩) ∧
    Band.Inv (F := Rat) ⟨false, 10, 0, 0, true⟩ ⟨5, -10, 10, 0⟩ ∧ feq (5 : Rat) Band.unset = false :=
  ⟨by decide +kernel, ⟨by decide, fun _ => by decide +kernel⟩, by decide +kernel⟩

example : feq (Band.unset : Fl) Band.unset = true ∧ feq (Band.unset : Rat) Band.unset = true := by decide +kernel

end Spine

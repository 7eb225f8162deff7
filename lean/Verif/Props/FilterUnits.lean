import Verif.Props.PidUnits
import Verif.Model.Filter
import Verif.Model.Latch
/-!
# C185: filters and latches do not depend on the unit of the quantity
-/

namespace Spine

namespace Rescale

theorem value_sub (u : Rescale) (x y : Rat) : u.value x - u.value y = u.a * (x - y) := by simp only [value]; ring

theorem value_lt (u : Rescale) (x y : Rat) : Arith.lt (u.value x) (u.value y) = Arith.lt x y := by
  change decide (u.value x < u.value y) = decide (x < y)
  have : u.value x < u.value y ↔ x < y := by
    have h := u.value_sub y x
    have hp := u.pos
    constructor
    · intro hl
      have : 0 < u.a * (y - x) := by linarith
      have := pos_of_mul_pos_of_pos_left' this hp
      linarith
    · intro hl
      have : 0 < u.a * (y - x) := mul_pos hp (by linarith)
      linarith
  simp only [this]
where
  pos_of_mul_pos_of_pos_left' {a b : Rat} (h : 0 < a * b) (ha : 0 < a) : 0 < b := by
    by_contra hc
    have := mul_nonneg ha.le (by linarith : 0 ≤ -b)
    linarith

theorem value_le (u : Rescale) (x y : Rat) : Arith.le (u.value x) (u.value y) = Arith.le x y := by
  have h := u.value_lt y x
  change decide (u.value y < u.value x) = decide (y < x) at h
  change decide (u.value x ≤ u.value y) = decide (x ≤ y)
  have h' : u.value y < u.value x ↔ y < x := by simpa only [decide_eq_decide] using h
  rw [decide_eq_decide, ← not_lt, ← not_lt, h']

/-- The average in the new unit. -/
def ewma (u : Rescale) (s : Ewma Rat) : Ewma Rat := { s with value := u.value s.value }

theorem ewma_sample (u : Rescale) (k x : Rat) (s : Ewma Rat) : (u.ewma s).sample k (u.value x) = u.ewma (s.sample k x) := by
  simp only [Ewma.sample, ewma]
  by_cases h : feq s.n fzero = true
  · simp only [h, if_true]
  · simp only [h, if_false, Ewma.mk.injEq, true_and, Bool.false_eq_true]
    generalize fmin (Arith.add s.n (Arith.ofRat 1)) k = d
    change u.value s.value + (u.value x - u.value s.value) / d = u.value (s.value + (x - s.value) / d)
    simp only [value]; ring

end Rescale

/-- The answers of a filter to samples: what `value(sample)` returns, nothing if it throws. -/
def Filter.outputs {F : Type} (f : Filter F) : List F → Res (List (Option F))
  | [] => .ok []
  | x :: xs =>
    match f.take x with
    | .error e => .error e
    | .ok (f', y) => (f'.outputs xs).map (y :: ·)

/-- The answers of a stack. -/
def FilterStack.outputs {F : Type} (b : Build) (st : FilterStack F) : List F → Res (List (Option F))
  | [] => .ok []
  | x :: xs =>
    match FilterStack.take b st x with
    | .error e => .error e
    | .ok (st', y) => (FilterStack.outputs b st' xs).map (y :: ·)

/-- Two filters step alike, the second one with samples in the unit `u` and values in the unit `v`. -/
def Like (u v : Rescale) (f g : Filter Rat) : Prop := ∃ R : f.State → g.State → Prop, R f.state g.state ∧ ∀ s t x, R s t →
  (∃ e, f.step s x = .error e ∧ g.step t (u.value x) = .error e) ∨ ∃ s' t' y, f.step s x = .ok (s', y) ∧ g.step t (u.value x) = .ok (t', y.map v.value) ∧ R s' t'

/-- Two stacks of such filters. -/
inductive LikeStack : Rescale → Rescale → FilterStack Rat → FilterStack Rat → Prop
  | nil (u) : LikeStack u u [] []
  | cons {u v w f g fs gs} : Like u v f g → LikeStack v w fs gs → LikeStack u w (some f :: fs) (some g :: gs)

theorem Like.take {u v : Rescale} {f g : Filter Rat} (h : Like u v f g) (x : Rat) :
    (∃ e, f.take x = .error e ∧ g.take (u.value x) = .error e) ∨ ∃ f' g' y, f.take x = .ok (f', y) ∧ g.take (u.value x) = .ok (g', y.map v.value) ∧ Like u v f' g' := by
  obtain ⟨R, h0, h1⟩ := h
  rcases h1 _ _ x h0 with ⟨e, e1, e2⟩ | ⟨s', t', y, e1, e2, e3⟩
  · exact .inl ⟨e, by simp only [Filter.take, e1], by simp only [Filter.take, e2]⟩
  · exact .inr ⟨{ f with state := s' }, { g with state := t' }, y, by simp only [Filter.take, e1], by simp only [Filter.take, e2], R, e3, h1⟩

theorem LikeStack.take {b : Build} {u w : Rescale} {fs gs : FilterStack Rat} (h : LikeStack u w fs gs) : ∀ x,
    (∃ e, FilterStack.take b fs x = .error e ∧ FilterStack.take b gs (u.value x) = .error e) ∨ ∃ fs' gs' y, FilterStack.take b fs x = .ok (fs', y) ∧ FilterStack.take b gs (u.value x) = .ok (gs', y.map w.value) ∧ LikeStack u w fs' gs' := by
  induction h with
  | nil u => intro x; exact .inr ⟨[], [], some x, rfl, rfl, .nil u⟩
  | cons hf hs ih =>
    intro x
    rcases hf.take x with ⟨e, e1, e2⟩ | ⟨f', g', y, e1, e2, e3⟩
    · exact .inl ⟨e, by simp only [FilterStack.take, e1]; rfl, by simp only [FilterStack.take, e2]; rfl⟩
    · cases y with
      | none => exact .inr ⟨_, _, none, by simp only [FilterStack.take, e1]; rfl, by simp only [FilterStack.take, e2]; rfl, .cons e3 hs⟩
      | some y =>
        rcases ih y with ⟨e, d1, d2⟩ | ⟨fs', gs', z, d1, d2, d3⟩
        · exact .inl ⟨e, by simp only [FilterStack.take, e1, res_bind_ok, d1]; rfl, by simp only [FilterStack.take, e2, res_bind_ok, Option.map_some, d2]; rfl⟩
        · exact .inr ⟨_, _, z, by simp only [FilterStack.take, e1, res_bind_ok, d1]; rfl, by simp only [FilterStack.take, e2, res_bind_ok, Option.map_some, d2]; rfl, .cons e3 d3⟩

theorem Like.outputs {u v : Rescale} (xs : List Rat) : ∀ {f g : Filter Rat}, Like u v f g → g.outputs (xs.map u.value) = (f.outputs xs).map (·.map (·.map v.value)) := by
  induction xs with
  | nil => intro f g _; rfl
  | cons x xs ih =>
    intro f g h
    simp only [List.map_cons, Filter.outputs]
    rcases h.take x with ⟨e, e1, e2⟩ | ⟨f', g', y, e1, e2, e3⟩
    · rw [e1, e2]; rfl
    · rw [e1, e2]
      simp only [ih e3]
      cases f'.outputs xs <;> rfl

theorem LikeStack.outputs {b : Build} {u w : Rescale} (xs : List Rat) : ∀ {fs gs : FilterStack Rat}, LikeStack u w fs gs →
    FilterStack.outputs b gs (xs.map u.value) = (FilterStack.outputs b fs xs).map (·.map (·.map w.value)) := by
  induction xs with
  | nil => intro f g _; rfl
  | cons x xs ih =>
    intro f g h
    simp only [List.map_cons, FilterStack.outputs]
    rcases h.take (b := b) x with ⟨e, e1, e2⟩ | ⟨f', g', y, e1, e2, e3⟩
    · rw [e1, e2]; rfl
    · rw [e1, e2]
      simp only [ih e3]
      cases FilterStack.outputs b f' xs <;> rfl

theorem like_ewma (u : Rescale) (k : Rat) : Like u u (Filter.ewma k) (Filter.ewma k) := by
  refine ⟨fun (s t : Ewma Rat) => t = u.ewma s ∨ (s = Ewma.create ∧ t = Ewma.create), .inr ⟨rfl, rfl⟩, fun (s t : Ewma Rat) x h => .inr ⟨s.sample k x, t.sample k (u.value x), some (s.sample k x).value, rfl, ?_⟩⟩
  have key : t.sample k (u.value x) = u.ewma (s.sample k x) := by
    rcases h with h | ⟨h1, h2⟩
    · rw [h, u.ewma_sample]
    · have h0 : feq (Ewma.create : Ewma Rat).n fzero = true := by decide +kernel
      rw [h1, h2]
      simp only [Ewma.sample, h0, if_true, Rescale.ewma]
  refine ⟨?_, .inl key⟩
  change Except.ok (t.sample k (u.value x), some (t.sample k (u.value x)).value) = _
  rw [key]; rfl

/-- The same range in the new units. -/
def Rescale.range (u v : Rescale) (c : MapCfg Rat) : MapCfg Rat := { c with inLo := u.value c.inLo, inHi := u.value c.inHi, outLo := v.value c.outLo, outHi := v.value c.outHi }

theorem Rescale.map_range (u v : Rescale) (c : MapCfg Rat) (x : Rat) : (u.range v c).map (u.value x) = (c.map x).map (·.map v.value) := by
  have hs : ∀ x : Rat, v.value c.outLo + (u.value x - u.value c.inLo) / (u.value c.inHi - u.value c.inLo) * (v.value c.outHi - v.value c.outLo) =
      v.value (c.outLo + (x - c.inLo) / (c.inHi - c.inLo) * (c.outHi - c.outLo)) := by
    intro x
    rw [u.value_sub, u.value_sub, v.value_sub, mul_div_mul_left _ _ u.pos.ne']
    simp only [value]; ring
  have hc : fclamp (u.value x) (u.value c.inLo) (u.value c.inHi) = (fclamp x c.inLo c.inHi).map u.value := by
    simp only [fclamp, u.value_lt]
    split
    · rfl
    · simp only [Except.map]; split_ifs <;> rfl
  simp only [MapCfg.map, range, u.value_lt, hc]
  split
  · split
    · rfl
    · cases fclamp x c.inLo c.inHi with
      | error e => rfl
      | ok y => exact congrArg (fun z => Except.ok (some z)) (hs y)
  · exact congrArg (fun z => Except.ok (some z)) (hs x)

theorem like_mapped (u v : Rescale) (c : MapCfg Rat) : Like u v (Filter.mapped c) (Filter.mapped (u.range v c)) := by
  refine ⟨fun _ _ => True, trivial, fun (s t : Rat) x _ => ?_⟩
  change (∃ e, (c.map x >>= fun y => .ok (y.getD s, y)) = Except.error e ∧ ((u.range v c).map (u.value x) >>= fun y => .ok (y.getD t, y)) = Except.error e) ∨
    ∃ s' t' y, (c.map x >>= fun y => .ok (y.getD s, y)) = Except.ok (s', y) ∧ ((u.range v c).map (u.value x) >>= fun y => .ok (y.getD t, y)) = Except.ok (t', y.map v.value) ∧ True
  rw [u.map_range v]
  cases c.map x with
  | error e => exact .inl ⟨e, rfl, rfl⟩
  | ok y => exact .inr ⟨_, _, y, rfl, rfl, trivial⟩

theorem like_inverter (u : Rescale) (b : Build) (lo hi : Rat) : Like u u (Filter.inverter b lo hi) (Filter.inverter b (u.value lo) (u.value hi)) := by
  refine ⟨fun _ _ => True, trivial, fun (s t : Rat) x _ => ?_⟩
  have e : invert b (u.value lo) (u.value hi) (u.value x) = (invert b lo hi x).map u.value := by
    simp only [invert, u.value_le]
    cases spnAssert b (Arith.le lo x && Arith.le x hi) with
    | error e => rfl
    | ok _ =>
      refine congrArg Except.ok ?_
      change u.value hi - (u.value x - u.value lo) = u.value (hi - (x - lo))
      simp only [Rescale.value]; ring
  change (∃ e, (invert b lo hi x >>= fun y => .ok (y, some y)) = Except.error e ∧ (invert b (u.value lo) (u.value hi) (u.value x) >>= fun y => .ok (y, some y)) = Except.error e) ∨
    ∃ s' t' y, (invert b lo hi x >>= fun y => .ok (y, some y)) = Except.ok (s', y) ∧ (invert b (u.value lo) (u.value hi) (u.value x) >>= fun y => .ok (y, some y)) = Except.ok (t', y.map u.value) ∧ True
  rw [e]
  cases invert b lo hi x with
  | error e => exact .inl ⟨e, rfl, rfl⟩
  | ok y => exact .inr ⟨_, _, some y, rfl, rfl, trivial⟩

theorem like_passthrough (u : Rescale) : Like u u Filter.passthrough Filter.passthrough :=
  ⟨fun _ _ => True, trivial, fun s t x _ => .inr ⟨x, u.value x, some x, rfl, rfl, trivial⟩⟩

/-- A filter, as it is set up for a quantity of one unit. -/
inductive Setup
  | ewma (k : Rat)
  | mapped (c : MapCfg Rat)
  | inverter (lo hi : Rat)
  | passthrough

namespace Setup

/-- The filter. -/
def filter (b : Build) : Setup → Filter Rat
  | .ewma k => .ewma k
  | .mapped c => .mapped c
  | .inverter lo hi => .inverter b lo hi
  | .passthrough => .passthrough

/-- A filter for a stack with a unit for what it returns: a mapped range leads to a quantity of its own, the others do not change the unit. -/
def after (u : Rescale) : Setup × Rescale → Rescale
  | (.mapped _, v) => v
  | _ => u

/-- The same filter in the new units. -/
def rescale (u : Rescale) : Setup × Rescale → Setup
  | (.ewma k, _) => .ewma k
  | (.mapped c, v) => .mapped (u.range v c)
  | (.inverter lo hi, _) => .inverter (u.value lo) (u.value hi)
  | (.passthrough, _) => .passthrough

/-- The same filters in the new units. -/
def rescaleAll : Rescale → List (Setup × Rescale) → List Setup
  | _, [] => []
  | u, f :: fs => rescale u f :: rescaleAll (after u f) fs

/-- The unit of what the last filter returns. -/
def final : Rescale → List (Setup × Rescale) → Rescale
  | u, [] => u
  | u, f :: fs => final (after u f) fs

theorem like (b : Build) (u : Rescale) (f : Setup × Rescale) : Like u (after u f) (f.1.filter b) ((rescale u f).filter b) := by
  obtain ⟨f, v⟩ := f
  cases f with
  | ewma k => exact like_ewma u k
  | mapped c => exact like_mapped u v c
  | inverter lo hi => exact like_inverter u b lo hi
  | passthrough => exact like_passthrough u

theorem likeStack (b : Build) (fs : List (Setup × Rescale)) : ∀ u, LikeStack u (final u fs) (fs.map fun f => some (f.1.filter b)) ((rescaleAll u fs).map fun f => some (f.filter b)) := by
  induction fs with
  | nil => intro u; exact .nil u
  | cons f fs ih => intro u; exact .cons (like b u f) (ih _)

end Setup

/-- **C185** for filter stacks of averages, mapped ranges, inverters and pass-through filters, in exact arithmetic, for any units of the samples and of the mapped ranges: the answers to any
samples in the new unit are the answers in the old unit, converted; it throws, or fails, if the other one does. -/
theorem C185_stack (b : Build) (u : Rescale) (fs : List (Setup × Rescale)) (xs : List Rat) :
    FilterStack.outputs b ((Setup.rescaleAll u fs).map fun f => some (f.filter b)) (xs.map u.value) =
      (FilterStack.outputs b (fs.map fun f => some (f.1.filter b)) xs).map (·.map (·.map (Setup.final u fs).value)) :=
  LikeStack.outputs xs (Setup.likeStack b fs u)

/-- The same latch in the new unit. -/
def Rescale.latch (u : Rescale) (c : LatchConfig Rat) : LatchConfig Rat := { c with high := u.value c.high, low := u.value c.low }

/-- **C185** for a latch, in exact arithmetic: the responses to any readings are the same in both units. -/
theorem C185_latch (u : Rescale) (c : LatchConfig Rat) (t0 : Int) (rs : List (Int × Rat)) :
    Latch.responses (u.latch c) t0 (rs.map fun r => (r.1, u.value r.2)) = Latch.responses c t0 rs := by
  have h : ∀ l : Latch, l.run (u.latch c) (rs.map fun r => (r.1, u.value r.2)) = l.run c rs := by
    induction rs with
    | nil => intro l; rfl
    | cons r rs ih =>
      intro l
      obtain ⟨now, v⟩ := r
      have e : l.newReading (u.latch c) now (u.value v) = l.newReading c now v := by
        simp only [Latch.newReading, Rescale.latch, u.value_lt]
      simp only [List.map_cons, Latch.run, e, ih]
  unfold Latch.responses
  change (Latch.create c t0 >>= _) = _
  simp only [h]

/-- The same band in the new unit: its middle is a difference to the value, or a value. -/
def Rescale.band (u : Rescale) (c : BandCfg Rat) : BandCfg Rat := { c with width := u.a * c.width, offset := if c.relative then u.a * c.offset else u.value c.offset }

theorem feq_rat (x y : Rat) : feq x y = decide (x = y) := by
  change (decide (x ≤ y) && decide (y ≤ x)) = decide (x = y)
  rw [← Bool.decide_and, decide_eq_decide]
  exact ⟨fun h => le_antisymm h.1 h.2, fun h => ⟨h.le, h.ge⟩⟩

/-- The same filter in the new unit, or both of them without a sample. -/
def Rescale.BandLike (u : Rescale) (c : BandCfg Rat) (s t : Band Rat) : Prop :=
  (s.value = Band.unset ∧ t.value = Band.unset ∨ s.value ≠ Band.unset ∧ t.value ≠ Band.unset ∧ t.value = u.value s.value) ∧
  (c.relative = false → t.lower = u.value s.lower ∧ t.upper = u.value s.upper) ∧ t.rejections = s.rejections

/-- The filter with the limits that a sample is compared to. -/
def Band.ready (c : BandCfg Rat) (s : Band Rat) (x : Rat) : Band Rat :=
  let s := if feq s.value Band.unset then s.reset x else s
  if c.relative then Band.updateLimits c s else s

theorem Rescale.band_ready (u : Rescale) (c : BandCfg Rat) {s t : Band Rat} (h : u.BandLike c s t) {x : Rat} (hx : x ≠ Band.unset) (hx' : u.value x ≠ Band.unset) :
    (s.ready c x).value ≠ Band.unset ∧ (t.ready (u.band c) (u.value x)).value ≠ Band.unset ∧ (t.ready (u.band c) (u.value x)).value = u.value (s.ready c x).value ∧
    (t.ready (u.band c) (u.value x)).lower = u.value (s.ready c x).lower ∧ (t.ready (u.band c) (u.value x)).upper = u.value (s.ready c x).upper ∧
    (t.ready (u.band c) (u.value x)).rejections = (s.ready c x).rejections := by
  obtain ⟨hv, hl, hr⟩ := h
  have key : ∀ s' t' : Band Rat, s'.value ≠ Band.unset → t'.value ≠ Band.unset → t'.value = u.value s'.value → (c.relative = false → t'.lower = u.value s'.lower ∧ t'.upper = u.value s'.upper) →
      t'.rejections = s'.rejections → let s'' := if c.relative then Band.updateLimits c s' else s'
      let t'' := if c.relative then Band.updateLimits (u.band c) t' else t'
      s''.value ≠ Band.unset ∧ t''.value ≠ Band.unset ∧ t''.value = u.value s''.value ∧ t''.lower = u.value s''.lower ∧ t''.upper = u.value s''.upper ∧ t''.rejections = s''.rejections := by
    intro s' t' h1 h2 h3 h4 h5
    by_cases hc : c.relative = true
    · simp only [hc, if_true, Band.updateLimits, Rescale.band]
      refine ⟨h1, h2, h3, ?_, ?_, h5⟩
      · change t'.value + u.a * c.offset - u.a * c.width = u.value (s'.value + c.offset - c.width)
        rw [h3]; simp only [Rescale.value]; ring
      · change t'.value + u.a * c.offset + u.a * c.width = u.value (s'.value + c.offset + c.width)
        rw [h3]; simp only [Rescale.value]; ring
    · have hc : c.relative = false := by simpa using hc
      simp only [hc]
      exact ⟨h1, h2, h3, (h4 hc).1, (h4 hc).2, h5⟩
  rcases hv with ⟨h1, h2⟩ | ⟨h1, h2, h3⟩
  · have e1 : feq s.value (Band.unset : Rat) = true := by rw [feq_rat, h1]; simp
    have e2 : feq t.value (Band.unset : Rat) = true := by rw [feq_rat, h2]; simp
    simp only [Band.ready, e1, e2, if_true]
    exact key (s.reset x) (t.reset (u.value x)) hx hx' rfl hl hr
  · have e1 : feq s.value (Band.unset : Rat) = false := by rw [feq_rat]; simp [h1]
    have e2 : feq t.value (Band.unset : Rat) = false := by rw [feq_rat]; simp [h2]
    simp only [Band.ready, e1, e2]
    exact key s t h1 h2 h3 hl hr

theorem Rescale.band_sample (u : Rescale) (c : BandCfg Rat) {s t : Band Rat} (h : u.BandLike c s t) {x : Rat} (hx : x ≠ Band.unset) (hx' : u.value x ≠ Band.unset) :
    (∃ e, s.sample c x = .error e ∧ t.sample (u.band c) (u.value x) = .error e) ∨
    ∃ ok s' t', s.sample c x = .ok (ok, s') ∧ t.sample (u.band c) (u.value x) = .ok (ok, t') ∧ u.BandLike c s' t' ∧ t'.value = u.value s'.value := by
  obtain ⟨h1, h2, h3, h4, h5, h6⟩ := u.band_ready c h hx hx'
  change (∃ e, (if Arith.le (s.ready c x).lower x && Arith.le x (s.ready c x).upper then (Except.ok (true, { s.ready c x with value := x, rejections := 0 }) : Res (Bool × Band Rat)) else
      i32 ((s.ready c x).rejections + 1) >>= fun n => if n > c.limit then if c.throws then .ok (false, { s.ready c x with rejections := n }) else .ok (true, { s.ready c x with rejections := n, value := x })
        else .ok (true, { s.ready c x with rejections := n })) = .error e ∧
      (if Arith.le (t.ready (u.band c) (u.value x)).lower (u.value x) && Arith.le (u.value x) (t.ready (u.band c) (u.value x)).upper then (Except.ok (true, { t.ready (u.band c) (u.value x) with value := u.value x, rejections := 0 }) : Res (Bool × Band Rat)) else
      i32 ((t.ready (u.band c) (u.value x)).rejections + 1) >>= fun n => if n > c.limit then if c.throws then .ok (false, { t.ready (u.band c) (u.value x) with rejections := n }) else .ok (true, { t.ready (u.band c) (u.value x) with rejections := n, value := u.value x })
        else .ok (true, { t.ready (u.band c) (u.value x) with rejections := n })) = .error e) ∨ ∃ ok s' t',
      (if Arith.le (s.ready c x).lower x && Arith.le x (s.ready c x).upper then (Except.ok (true, { s.ready c x with value := x, rejections := 0 }) : Res (Bool × Band Rat)) else
      i32 ((s.ready c x).rejections + 1) >>= fun n => if n > c.limit then if c.throws then .ok (false, { s.ready c x with rejections := n }) else .ok (true, { s.ready c x with rejections := n, value := x })
        else .ok (true, { s.ready c x with rejections := n })) = .ok (ok, s') ∧
      (if Arith.le (t.ready (u.band c) (u.value x)).lower (u.value x) && Arith.le (u.value x) (t.ready (u.band c) (u.value x)).upper then (Except.ok (true, { t.ready (u.band c) (u.value x) with value := u.value x, rejections := 0 }) : Res (Bool × Band Rat)) else
      i32 ((t.ready (u.band c) (u.value x)).rejections + 1) >>= fun n => if n > c.limit then if c.throws then .ok (false, { t.ready (u.band c) (u.value x) with rejections := n }) else .ok (true, { t.ready (u.band c) (u.value x) with rejections := n, value := u.value x })
        else .ok (true, { t.ready (u.band c) (u.value x) with rejections := n })) = .ok (ok, t') ∧ u.BandLike c s' t' ∧ t'.value = u.value s'.value
  generalize s.ready c x = p at *
  generalize t.ready (u.band c) (u.value x) = q at *
  rw [h4, h5, u.value_le, u.value_le, h6]
  by_cases hin : (Arith.le p.lower x && Arith.le x p.upper) = true
  · simp only [hin, if_true]
    exact .inr ⟨_, _, _, rfl, rfl, ⟨.inr ⟨hx, hx', rfl⟩, fun _ => ⟨h4, h5⟩, rfl⟩, rfl⟩
  · simp only [hin]
    cases i32 (p.rejections + 1) with
    | error e => exact .inl ⟨e, rfl, rfl⟩
    | ok n =>
      by_cases hn : n > c.limit
      · by_cases ht : c.throws = true
        · simp only [Bool.false_eq_true, if_false, res_bind_ok, hn, ht, if_true]
          exact .inr ⟨_, _, _, rfl, rfl, ⟨.inr ⟨h1, h2, h3⟩, fun _ => ⟨h4, h5⟩, rfl⟩, h3⟩
        · simp only [Bool.false_eq_true, if_false, res_bind_ok, hn, ht, if_true]
          exact .inr ⟨_, _, _, rfl, rfl, ⟨.inr ⟨hx, hx', rfl⟩, fun _ => ⟨h4, h5⟩, rfl⟩, rfl⟩
      · simp only [Bool.false_eq_true, if_false, res_bind_ok, hn]
        exact .inr ⟨_, _, _, rfl, rfl, ⟨.inr ⟨h1, h2, h3⟩, fun _ => ⟨h4, h5⟩, rfl⟩, h3⟩

/-- What a band-pass filter makes of samples: for each, whether it was taken without an exception, and the value then. -/
def Band.history (c : BandCfg Rat) (xs : List Rat) : Res (List (Bool × Rat)) := (Band.samples c (Band.create c) xs).map (·.1)

/-- **C185** for a band-pass filter, in exact arithmetic, for samples that are not the value by which it knows that it has none, in either unit: the values, converted, and the exceptions are the same. -/
theorem C185_band_partial (u : Rescale) (c : BandCfg Rat) (xs : List Rat) (hxs : ∀ x ∈ xs, x ≠ Band.unset ∧ u.value x ≠ Band.unset) :
    Band.history (u.band c) (xs.map u.value) = (Band.history c xs).map (·.map fun o => (o.1, u.value o.2)) := by
  have h : ∀ (xs : List Rat) (s t : Band Rat), (∀ x ∈ xs, x ≠ Band.unset ∧ u.value x ≠ Band.unset) → u.BandLike c s t →
      (Band.samples (u.band c) t (xs.map u.value)).map (·.1) = ((Band.samples c s xs).map (·.1)).map (·.map fun o => (o.1, u.value o.2)) := by
    intro xs
    induction xs with
    | nil => intro s t _ _; rfl
    | cons x xs ih =>
      intro s t hxs hst
      have hx := hxs x (by simp)
      rcases u.band_sample c hst hx.1 hx.2 with ⟨e, e1, e2⟩ | ⟨ok, s', t', e1, e2, hst', hv⟩
      · simp only [List.map_cons, Band.samples, e1, e2, res_bind_error]; rfl
      · have ih := ih s' t' (fun y hy => hxs y (by simp [hy])) hst'
        simp only [List.map_cons, Band.samples, e1, e2, res_bind_ok]
        cases hs : Band.samples c s' xs with
        | error e =>
          cases ht : Band.samples (u.band c) t' (xs.map u.value) with
          | error e' => rw [hs, ht] at ih; exact ih
          | ok r' => rw [hs, ht] at ih; cases ih
        | ok r =>
          cases ht : Band.samples (u.band c) t' (xs.map u.value) with
          | error e' => rw [hs, ht] at ih; cases ih
          | ok r' =>
            rw [hs, ht] at ih
            have ih : r'.1 = r.1.map fun o => (o.1, u.value o.2) := Except.ok.inj ih
            change Except.ok ((ok, t'.value) :: r'.1) = Except.ok ((ok, u.value s'.value) :: r.1.map fun o => (o.1, u.value o.2))
            rw [hv, ih]
  refine h xs _ _ hxs ⟨.inl ⟨rfl, rfl⟩, fun hc => ?_, rfl⟩
  simp only [Band.create, Band.updateLimits, Rescale.band, hc]
  constructor
  · change u.value c.offset - u.a * c.width = u.value (c.offset - c.width)
    simp only [Rescale.value]; ring
  · change u.value c.offset + u.a * c.width = u.value (c.offset + c.width)
    simp only [Rescale.value]; ring

/-- **C185** does not hold for a band-pass filter of samples of which one is the value by which it knows that it has none: in degrees Celsius the sample of 0 that follows is taken as the first one, in degrees
Fahrenheit it is rejected, and the value remains where it was. -/
theorem C185_band_counterexample : ∃ (c : BandCfg Rat) (xs : List Rat), (Band.history c xs).map (·.map Prod.snd) = .ok xs ∧
    (Band.history (fahrenheit.band c) (xs.map fahrenheit.value)).map (·.map Prod.snd) = .ok [fahrenheit.value xs[0]!, fahrenheit.value xs[0]!] ∧ xs = [-789123456789 / 1000000000, 0] :=
  ⟨⟨true, 10, 0, 5, false⟩, [-789123456789 / 1000000000, 0], by decide +kernel, by decide +kernel, rfl⟩

/-- A range of temperatures mapped to millimetres, and an average of that; a temperature out of the range is rejected by the filter, which throws. -/
def toLength : List (Setup × Rescale) := [(.mapped ⟨0, 100, 0, 5000, true⟩, metres), (.ewma 2, fahrenheit)]

/-- The same in Fahrenheit and metres. -/
example : Setup.rescaleAll fahrenheit toLength = [.mapped ⟨32, 212, 0, 5, true⟩, .ewma 2] ∧ Setup.final fahrenheit toLength = metres := by
  constructor
  · simp [toLength, Setup.rescaleAll, Setup.rescale, Setup.after, Rescale.range, Rescale.value, fahrenheit, metres]; norm_num
  · rfl

/-- 50, 70 and 150 degrees. -/
example : (FilterStack.outputs .debug (toLength.map fun f => some (f.1.filter .debug)) [50, 70, 150]).map (·.map (·.map metres.value)) = .ok [some (5 / 2), some 3, none] ∧
    FilterStack.outputs .debug ((Setup.rescaleAll fahrenheit toLength).map fun f => some (f.filter .debug)) [122, 158, 302] = .ok [some (5 / 2), some 3, none] := by
  have h : (FilterStack.outputs .debug (toLength.map fun f => some (f.1.filter .debug)) [50, 70, 150]).map (·.map (·.map metres.value)) = .ok [some (5 / 2), some 3, none] := by decide +kernel
  refine ⟨h, ?_⟩
  have h' := C185_stack .debug fahrenheit toLength [50, 70, 150]
  rw [show [50, 70, 150].map fahrenheit.value = [122, 158, 302] by decide +kernel] at h'
  rw [h']
  exact h

/-- A latch of 20 and 25 degrees. -/
example : Latch.responses (fahrenheit.latch { high := 25, low := 20 }) 0 [(0, 86), (10, 71), (20, 32)] = .ok [true, true, false] := by decide +kernel

/-- A band of 5 degrees around the value, three samples of which the second is rejected. -/
example : Band.history ⟨true, 5, 0, 3, true⟩ [20, 40, 22] = .ok [(true, 20), (true, 20), (true, 22)] ∧
    Band.history (fahrenheit.band ⟨true, 5, 0, 3, true⟩) [68, 104, 358 / 5] = .ok [(true, 68), (true, 68), (true, 358 / 5)] ∧ ∀ x ∈ ([20, 40, 22] : List Rat), x ≠ Band.unset ∧ fahrenheit.value x ≠ Band.unset := by
  decide +kernel

end Spine

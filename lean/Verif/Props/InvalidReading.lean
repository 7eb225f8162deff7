import Verif.Props.FilterOrder
import Verif.Props.FilterThrows
import Verif.Model.Latch
/-!
# C189: filters and latches after a reading that is not a number
-/

namespace Spine

open F32 Fl FilterOrder

/-- A filter gets the samples `xs` and gives `zs`; exceptions are caught by the user, who goes on. -/
inductive Filter.Runs : Filter Fl → List Fl → Filter Fl → List Fl → Prop
  | nil (f) : Runs f [] f []
  | given {f f' f'' x z xs zs} : f.take x = .ok (f', some z) → Runs f' xs f'' zs → Runs f (x :: xs) f'' (z :: zs)
  | thrown {f f' f'' x xs zs} : f.take x = .ok (f', none) → Runs f' xs f'' zs → Runs f (x :: xs) f'' zs

/-- The same for a stack. -/
inductive FilterStack.Runs (b : Build) : FilterStack Fl → List Fl → FilterStack Fl → List Fl → Prop
  | nil (st) : Runs b st [] st []
  | given {st st' st'' x z xs zs} : FilterStack.take b st x = .ok (st', some z) → Runs b st' xs st'' zs → Runs b st (x :: xs) st'' (z :: zs)
  | thrown {st st' st'' x xs zs} : FilterStack.take b st x = .ok (st', none) → Runs b st' xs st'' zs → Runs b st (x :: xs) st'' zs

/-- After any samples, among them some that are not numbers, all but the first `k` answers to samples that are numbers are numbers. -/
def Filter.Mends (k : Nat) (f : Filter Fl) : Prop :=
  ∀ xs f1 os, f.Runs xs f1 os → ∀ ys, (∀ y ∈ ys, y ≠ .nan) → ∀ f2 zs, f1.Runs ys f2 zs → ∀ z ∈ zs.drop k, z ≠ .nan

/-- The same for a stack. -/
def FilterStack.Mends (b : Build) (k : Nat) (st : FilterStack Fl) : Prop :=
  ∀ xs st1 os, FilterStack.Runs b st xs st1 os → ∀ ys, (∀ y ∈ ys, y ≠ .nan) → ∀ st2 zs, FilterStack.Runs b st1 ys st2 zs → ∀ z ∈ zs.drop k, z ≠ .nan

namespace InvalidReading

theorem stack_append {b : Build} {st st1 st2 : FilterStack Fl} {xs ys os zs : List Fl} (h1 : FilterStack.Runs b st xs st1 os) (h2 : FilterStack.Runs b st1 ys st2 zs) :
    FilterStack.Runs b st (xs ++ ys) st2 (os ++ zs) := by
  induction h1 with
  | nil => exact h2
  | given a _ ih => exact .given a (ih h2)
  | thrown a _ ih => exact .thrown a (ih h2)

theorem stack_split {b : Build} {ys : List Fl} : ∀ {xs : List Fl} {st st2 : FilterStack Fl} {zs : List Fl}, FilterStack.Runs b st (xs ++ ys) st2 zs →
    ∃ st1 z1 z2, zs = z1 ++ z2 ∧ z1.length ≤ xs.length ∧ FilterStack.Runs b st xs st1 z1 ∧ FilterStack.Runs b st1 ys st2 z2 := by
  intro xs
  induction xs with
  | nil => intro st st2 zs h; exact ⟨st, [], zs, rfl, le_refl _, .nil _, h⟩
  | cons x xs ih =>
    intro st st2 zs h
    cases h with
    | given a h =>
      obtain ⟨st1, z1, z2, rfl, hl, r1, r2⟩ := ih h
      exact ⟨st1, _ :: z1, z2, rfl, by simpa using hl, .given a r1, r2⟩
    | thrown a h =>
      obtain ⟨st1, z1, z2, rfl, hl, r1, r2⟩ := ih h
      exact ⟨st1, z1, z2, rfl, by simp; omega, .thrown a r1, r2⟩

theorem take_first {b : Build} {f : Filter Fl} {fs st' : FilterStack Fl} {x : Fl} {o : Option Fl} (h : FilterStack.take b (some f :: fs) x = .ok (st', o)) :
    ∃ f' y, f.take x = .ok (f', y) ∧ ((y = none ∧ o = none ∧ st' = some f' :: fs) ∨ ∃ z fs', y = some z ∧ FilterStack.take b fs z = .ok (fs', o) ∧ st' = some f' :: fs') := by
  rw [FilterStack.take] at h
  cases h1 : f.take x with
  | error _ => rw [h1] at h; cases h
  | ok r =>
    obtain ⟨f', y⟩ := r
    rw [h1, res_bind_ok] at h
    refine ⟨f', y, rfl, ?_⟩
    cases y with
    | none =>
      obtain ⟨e1, e2⟩ := Prod.mk.inj (Except.ok.inj h)
      exact .inl ⟨rfl, e2.symm, e1.symm⟩
    | some z =>
      cases h2 : FilterStack.take b fs z with
      | error _ => simp only [h2] at h; cases h
      | ok r =>
        obtain ⟨r1, r2⟩ := r
        simp only [h2, res_bind_ok] at h
        obtain ⟨e1, e2⟩ := Prod.mk.inj (Except.ok.inj h)
        exact .inr ⟨z, r1, rfl, by rw [h2, e2], e1.symm⟩

theorem runs_cons {b : Build} {f : Filter Fl} {fs st' : FilterStack Fl} {xs zs : List Fl} (h : FilterStack.Runs b (some f :: fs) xs st' zs) :
    ∃ f' fs' ms, st' = some f' :: fs' ∧ f.Runs xs f' ms ∧ FilterStack.Runs b fs ms fs' zs := by
  generalize e : (some f :: fs : FilterStack Fl) = st at h
  induction h generalizing f fs with
  | nil => subst e; exact ⟨f, fs, [], rfl, .nil _, .nil _⟩
  | given a _ ih =>
    subst e
    obtain ⟨f1, y, h1, ⟨_, h2, _⟩ | ⟨m, fs1, rfl, h2, rfl⟩⟩ := take_first a
    · cases h2
    · obtain ⟨f', fs', ms, rfl, h3, h4⟩ := ih rfl
      exact ⟨f', fs', m :: ms, rfl, .given h1 h3, .given h2 h4⟩
  | thrown a _ ih =>
    subst e
    obtain ⟨f1, y, h1, ⟨rfl, _, rfl⟩ | ⟨m, fs1, rfl, h2, rfl⟩⟩ := take_first a
    · obtain ⟨f', fs', ms, rfl, h3, h4⟩ := ih rfl
      exact ⟨f', fs', ms, rfl, .thrown h1 h3, h4⟩
    · obtain ⟨f', fs', ms, rfl, h3, h4⟩ := ih rfl
      exact ⟨f', fs', m :: ms, rfl, .given h1 h3, .thrown h2 h4⟩

theorem runs_nil {b : Build} {xs : List Fl} : ∀ {st : FilterStack Fl} {zs : List Fl}, FilterStack.Runs b [] xs st zs → st = [] ∧ zs = xs := by
  induction xs with
  | nil => intro st zs h; cases h; exact ⟨rfl, rfl⟩
  | cons x xs ih =>
    intro st zs h
    cases h with
    | given a h =>
      obtain ⟨e1, e2⟩ := Prod.mk.inj (Except.ok.inj a)
      subst e1
      obtain ⟨r1, r2⟩ := ih h
      exact ⟨r1, by rw [r2, Option.some.inj e2]⟩
    | thrown a h => cases (Prod.mk.inj (Except.ok.inj a)).2

/-- A filter of which each state has a number of answers after which it gives numbers. -/
theorem mends_of {S : Type} {s : S} {step : S → Fl → Res (S × Option Fl)} {cur : S → Fl} {reset : S → Fl → S} (k : Nat) (Heal : Nat → S → Prop) (h0 : Heal k s)
    (any : ∀ s x s' o, Heal k s → step s x = .ok (s', o) → Heal k s')
    (good : ∀ j s x s' z, Heal j s → x ≠ .nan → step s x = .ok (s', some z) → Heal (j - 1) s' ∧ (j = 0 → z ≠ .nan))
    (thrown : ∀ j s x s', Heal j s → x ≠ .nan → step s x = .ok (s', none) → Heal j s') : Filter.Mends k ⟨S, s, step, cur, reset⟩ := by
  have take : ∀ {s : S} {x : Fl} {f' : Filter Fl} {o : Option Fl}, Filter.take ⟨S, s, step, cur, reset⟩ x = .ok (f', o) → ∃ s', step s x = .ok (s', o) ∧ f' = ⟨S, s', step, cur, reset⟩ := by
    intro s x f' o h
    cases h1 : step s x with
    | error _ => simp only [Filter.take, h1] at h; cases h
    | ok r =>
      simp only [Filter.take, h1] at h
      cases h
      exact ⟨_, rfl, rfl⟩
  have first : ∀ {f : Filter Fl} {xs : List Fl} {f1 : Filter Fl} {os : List Fl}, f.Runs xs f1 os → ∀ s, f = ⟨S, s, step, cur, reset⟩ → Heal k s → ∃ s1, f1 = ⟨S, s1, step, cur, reset⟩ ∧ Heal k s1 := by
    intro f xs f1 os h
    induction h with
    | nil => intro s e hs; exact ⟨s, e, hs⟩
    | given a _ ih =>
      rintro s rfl hs
      obtain ⟨s', a1, a2⟩ := take a
      exact ih s' a2 (any _ _ _ _ hs a1)
    | thrown a _ ih =>
      rintro s rfl hs
      obtain ⟨s', a1, a2⟩ := take a
      exact ih s' a2 (any _ _ _ _ hs a1)
  have then_ : ∀ {f : Filter Fl} {ys : List Fl} {f2 : Filter Fl} {zs : List Fl}, f.Runs ys f2 zs → (∀ y ∈ ys, y ≠ .nan) → ∀ s j, f = ⟨S, s, step, cur, reset⟩ → Heal j s → ∀ z ∈ zs.drop j, z ≠ .nan := by
    intro f ys f2 zs h
    induction h with
    | nil => intro _ s j _ _ z hz; simp at hz
    | @given f f' f'' x z0 xs zs a _ ih =>
      rintro hy s j rfl hs z hz
      obtain ⟨s', a1, a2⟩ := take a
      obtain ⟨g1, g2⟩ := good j s x s' z0 hs (hy _ List.mem_cons_self) a1
      cases j with
      | zero =>
        rcases List.mem_cons.mp hz with rfl | hz
        · exact g2 rfl
        · exact ih (fun y h => hy y (List.mem_cons_of_mem _ h)) s' 0 a2 g1 z hz
      | succ j => exact ih (fun y h => hy y (List.mem_cons_of_mem _ h)) s' j a2 g1 z (by simpa using hz)
    | thrown a _ ih =>
      rintro hy s j rfl hs z hz
      obtain ⟨s', a1, a2⟩ := take a
      exact ih (fun y h => hy y (List.mem_cons_of_mem _ h)) s' j a2 (thrown j s _ s' hs (hy _ List.mem_cons_self) a1) z hz
  intro xs f1 os h1 ys hy f2 zs h2 z hz
  obtain ⟨s1, rfl, hs1⟩ := first h1 s rfl h0
  exact then_ h2 hy s1 k rfl hs1 z hz

end InvalidReading
open InvalidReading

/-- **C189**: the filters of a stack recover one after the other. -/
theorem C189_stack_partial {b : Build} {fs : List (Filter Fl)} {ks : List Nat} (h : List.Forall₂ (fun f k => Filter.Mends k f) fs ks) : FilterStack.Mends b ks.sum (fs.map some) := by
  induction h with
  | nil =>
    intro xs st1 os h1 ys hy st2 zs h2 z hz
    obtain ⟨rfl, -⟩ := runs_nil h1
    obtain ⟨-, rfl⟩ := runs_nil h2
    exact hy z (by simpa using hz)
  | @cons f k fs ks hf _ ih =>
    intro xs st1 os h1 ys hy st2 zs h2 z hz
    obtain ⟨f1, fs1, ms, rfl, a1, a2⟩ := runs_cons h1
    obtain ⟨f2, fs2, ns, rfl, b1, b2⟩ := runs_cons h2
    have valid := hf xs f1 ms a1 ys hy f2 ns b1
    rw [← List.take_append_drop k ns] at b2
    obtain ⟨mid, z1, z2, rfl, hl, c1, c2⟩ := stack_split b2
    refine ih _ mid _ (stack_append a2 c1) _ valid fs2 z2 c2 z ?_
    have hl' : z1.length ≤ k := hl.trans (by simp)
    rw [List.sum_cons, ← List.drop_drop, List.drop_append, List.drop_eq_nil_of_le hl', List.nil_append, List.drop_drop] at hz
    exact List.mem_of_mem_drop (i := k - z1.length) (by rw [List.drop_drop, Nat.add_comm]; exact hz)

/-- **C189** for a `BandPass`: at most `limit` answers are not numbers, the one to the invalid sample included. -/
theorem C189_band (c : BandCfg Fl) : (Filter.band c).Mends (c.limit.toNat - 1) := by
  have step : ∀ {s : Band Fl} {x : Fl} {s' : Band Fl} {o : Option Fl}, (do let (ok, s) ← s.sample c x; return (s, if ok then some s.value else none) : Res (Band Fl × Option Fl)) = .ok (s', o) →
      ∃ ok, s.sample c x = .ok (ok, s') ∧ o = if ok then some s'.value else none := by
    intro s x s' o h
    obtain ⟨⟨ok, t⟩, h1, h2⟩ := res_bind h
    obtain ⟨rfl, rfl⟩ := Prod.mk.inj (Except.ok.inj h2)
    exact ⟨ok, h1, rfl⟩
  have nanBand : ∀ v : Fl, inBand c v .nan = false := by
    intro v
    have : ∀ z : Fl, Arith.le z Fl.nan = false := by intro z; cases z <;> rfl
    rw [inBand, this, Bool.false_and]
  refine mends_of (c.limit.toNat - 1) (fun j s => Band.Inv c s ∧ (s.value = .nan → 1 ≤ s.rejections ∧ c.limit ≤ s.rejections + j)) ?_ ?_ ?_ ?_
  · exact ⟨Band.inv_create c, fun h => absurd h (show (Band.unset : Fl) ≠ .nan by decide +kernel)⟩
  · rintro s x s' o ⟨hi, hs⟩ h
    obtain ⟨ok, h1, -⟩ := step h
    cases hb : inBand c (s.base x) x with
    | true =>
      obtain ⟨t, e, v, r, hi'⟩ := (Band.sample_cases hi x).1 hb
      rw [e] at h1
      obtain ⟨rfl, rfl⟩ := Prod.mk.inj (Except.ok.inj h1)
      refine ⟨hi', fun hn => ?_⟩
      rw [v] at hn
      rw [hn, nanBand] at hb
      cases hb
    | false =>
      obtain ⟨g1, g2⟩ := (Band.sample_cases hi x).2 hb
      by_cases hr : s.rejections + 1 < 2 ^ 31
      · obtain ⟨t, e, r, hi', v⟩ := g2 hr
        rw [e] at h1
        obtain ⟨rfl, rfl⟩ := Prod.mk.inj (Except.ok.inj h1)
        have := hi.rejections
        exact ⟨hi', fun _ => ⟨by rw [r]; omega, by rw [r]; omega⟩⟩
      · rw [g1 (by omega)] at h1; cases h1
  · rintro j s x s' z ⟨hi, hs⟩ hx h
    obtain ⟨ok, h1, hz⟩ := step h
    cases hb : inBand c (s.base x) x with
    | true =>
      obtain ⟨t, e, v, r, hi'⟩ := (Band.sample_cases hi x).1 hb
      rw [e] at h1
      obtain ⟨rfl, rfl⟩ := Prod.mk.inj (Except.ok.inj h1)
      rw [if_pos rfl] at hz
      exact ⟨⟨hi', fun hn => absurd (v.symm.trans hn) hx⟩, fun _ => by rw [Option.some.inj hz, v]; exact hx⟩
    | false =>
      obtain ⟨g1, g2⟩ := (Band.sample_cases hi x).2 hb
      by_cases hr : s.rejections + 1 < 2 ^ 31
      · obtain ⟨t, e, r, hi', v⟩ := g2 hr
        rw [e] at h1
        obtain ⟨rfl, rfl⟩ := Prod.mk.inj (Except.ok.inj h1)
        have h0 := hi.rejections
        have old : t.value = .nan → s.value = .nan ∧ (s.rejections + 1 ≤ c.limit ∨ c.throws = true) := by
          intro hn
          by_cases hl : s.rejections + 1 ≤ c.limit ∨ c.throws = true
          · rw [if_pos hl] at v
            refine ⟨?_, hl⟩
            rw [v, Band.base] at hn
            split at hn
            · exact absurd hn hx
            · exact hn
          · rw [if_neg hl] at v
            exact absurd (v.symm.trans hn) hx
        refine ⟨⟨hi', fun hn => ?_⟩, fun hj hn => ?_⟩
        · have := (hs (old hn).1).2
          exact ⟨by rw [r]; omega, by rw [r]; omega⟩
        · subst hj
          cases hok : (decide (s.rejections + 1 ≤ c.limit) || !c.throws) with
          | false => rw [hok] at hz; cases hz
          | true =>
            rw [hok, if_pos rfl] at hz
            rw [Option.some.inj hz] at hn
            obtain ⟨o1, o2⟩ := old hn
            have := (hs o1).2
            simp only [Bool.or_eq_true, decide_eq_true_eq, Bool.not_eq_true'] at hok
            rcases o2 with o2 | o2
            · omega
            · rcases hok with hok | hok
              · omega
              · rw [o2] at hok; cases hok
      · rw [g1 (by omega)] at h1; cases h1
  · rintro j s x s' ⟨hi, hs⟩ hx h
    obtain ⟨ok, h1, hz⟩ := step h
    cases hb : inBand c (s.base x) x with
    | true =>
      obtain ⟨t, e, v, r, hi'⟩ := (Band.sample_cases hi x).1 hb
      rw [e] at h1
      obtain ⟨rfl, rfl⟩ := Prod.mk.inj (Except.ok.inj h1)
      cases hz
    | false =>
      obtain ⟨g1, g2⟩ := (Band.sample_cases hi x).2 hb
      by_cases hr : s.rejections + 1 < 2 ^ 31
      · obtain ⟨t, e, r, hi', v⟩ := g2 hr
        rw [e] at h1
        obtain ⟨rfl, rfl⟩ := Prod.mk.inj (Except.ok.inj h1)
        have h0 := hi.rejections
        cases hok : (decide (s.rejections + 1 ≤ c.limit) || !c.throws) with
        | true => rw [hok] at hz; cases hz
        | false =>
          simp only [Bool.or_eq_false_iff, decide_eq_false_iff_not] at hok
          exact ⟨hi', fun _ => ⟨by rw [r]; omega, by rw [r]; omega⟩⟩
      · rw [g1 (by omega)] at h1; cases h1

theorem mends_stateless {S : Type} {s : S} {step : S → Fl → Res (S × Option Fl)} {cur : S → Fl} {reset : S → Fl → S}
    (h : ∀ s x s' z, x ≠ .nan → step s x = .ok (s', some z) → z ≠ .nan) : Filter.Mends 0 ⟨S, s, step, cur, reset⟩ :=
  mends_of 0 (fun _ _ => True) trivial (fun _ _ _ _ _ _ => trivial) (fun _ s x s' z _ hx e => ⟨trivial, fun _ => h s x s' z hx e⟩) (fun _ _ _ _ _ _ _ => trivial)

theorem le_self {x : Fl} (h : x ≠ .nan) : Fl.le x x = true := by
  cases x with
  | nan => exact absurd rfl h
  | inf s => cases s <;> rfl
  | num s m => simp [Fl.le]

/-- **C189** for a `MappedRange` with limits of at most 2^125: each answer depends on one sample. -/
theorem C189_mapped {c : MapCfg Fl} (h : ∀ z ∈ [c.inLo, c.inHi, c.outLo, c.outHi], z.fin = true ∧ z.Ok ∧ |z.val| ≤ pow2 125) (hlt : Fl.lt c.inLo c.inHi = true) : (Filter.mapped c).Mends 0 := by
  refine mends_stateless fun s x s' z hx e => ?_
  have e' : c.map x = .ok (some z) := by
    obtain ⟨y, h1, h2⟩ := res_bind e
    rw [h1, (Prod.mk.inj (Except.ok.inj h2)).2]
  have m := map_mono h hlt (le_self hx) e' e'
  have f3 := (h c.outLo (by simp)).1
  have f4 := (h c.outHi (by simp)).1
  rcases le_total c.outLo.val c.outHi.val with hl | hl
  · exact (le_ne_nan (m.1 ((Fl.le_iff f3 f4).mpr hl))).1
  · exact (le_ne_nan (m.2 ((Fl.le_iff f4 f3).mpr hl))).1

/-- **C189** for an `Invert` with finite limits. -/
theorem C189_invert {b : Build} {lo hi : Fl} (h1 : lo.fin = true) (h2 : hi.fin = true) : (Filter.inverter b lo hi).Mends 0 := by
  refine mends_stateless fun s x s' z hx e => ?_
  obtain ⟨y, e1, e2⟩ := res_bind e
  obtain ⟨u, e3, e4⟩ := res_bind e1
  rw [← Option.some.inj (Prod.mk.inj (Except.ok.inj e2)).2, ← Except.ok.inj e4]
  exact (le_ne_nan (sub_anti h2 (sub_mono h1 (le_self hx)))).1

/-- **C189** for a `Passthrough`. -/
theorem C189_passthrough : (Filter.passthrough : Filter Fl).Mends 0 := by
  refine mends_stateless fun s x s' z hx e => ?_
  rw [← Option.some.inj (Prod.mk.inj (Except.ok.inj e)).2]
  exact hx

/-- A filter that throws nothing. -/
def Filter.Calm (f : Filter Fl) : Prop := ∀ s x s' o, f.step s x = .ok (s', o) → o ≠ none

/-- **C189**: a stack of filters that throw nothing answers every sample, so that the answers of C189 are not long in coming. -/
theorem C189_answers {b : Build} {fs : List (Filter Fl)} (h : ∀ f ∈ fs, f.Calm) {xs zs : List Fl} {st : FilterStack Fl} (hr : FilterStack.Runs b (fs.map some) xs st zs) :
    zs.length = xs.length := by
  have one : ∀ {f f' : Filter Fl} {xs ms : List Fl}, f.Runs xs f' ms → f.Calm → ms.length = xs.length := by
    intro f f' xs ms h
    induction h with
    | nil => intro _; rfl
    | @given f f1 f2 x z xs zs a _ ih =>
      intro hf
      cases h1 : f.step f.state x with
      | error _ => simp only [Filter.take, h1] at a; cases a
      | ok r =>
        simp only [Filter.take, h1] at a
        obtain ⟨rfl, -⟩ := Prod.mk.inj (Except.ok.inj a)
        simpa using ih hf
    | @thrown f f1 f2 x xs zs a _ ih =>
      intro hf
      cases h1 : f.step f.state x with
      | error _ => simp only [Filter.take, h1] at a; cases a
      | ok r =>
        simp only [Filter.take, h1] at a
        exact absurd (Prod.mk.inj (Except.ok.inj a)).2 (hf _ _ _ _ h1)
  induction fs generalizing xs st with
  | nil => rw [(runs_nil hr).2]
  | cons f fs ih =>
    obtain ⟨f', fs', ms, rfl, h1, h2⟩ := runs_cons hr
    rw [ih (fun g hg => h g (List.mem_cons_of_mem _ hg)) h2, one h1 (h f List.mem_cons_self)]

/-- **C189** after `reset_to` with a number: the value of a `BandPass` is a number for as long as the samples are. -/
theorem C189_band_reset {c : BandCfg Fl} {s s' : Band Fl} (hs : Band.Reachable c s) {v : Fl} (hv : v ≠ .nan) {xs : List Fl} (hx : ∀ x ∈ xs, x ≠ .nan) {os : List (Bool × Fl)}
    (h : (s.reset v).samples c xs = .ok (os, s')) : ∀ o ∈ os, o.2 ≠ .nan := by
  have key : ∀ (xs : List Fl) (t t' : Band Fl) (os : List (Bool × Fl)), (∀ x ∈ xs, x ≠ .nan) → Band.Inv c t → t.value ≠ .nan → t.samples c xs = .ok (os, t') → ∀ o ∈ os, o.2 ≠ .nan := by
    intro xs
    induction xs with
    | nil => intro t t' os _ _ _ h; cases h; simp
    | cons x xs ih =>
      intro t t' os hx hi ht h
      obtain ⟨⟨f, u⟩, h1, h⟩ := res_bind h
      obtain ⟨⟨os', u'⟩, h2, h⟩ := res_bind h
      obtain ⟨rfl, rfl⟩ := Prod.mk.inj (Except.ok.inj h)
      have hxx := hx x List.mem_cons_self
      have hu : Band.Inv c u ∧ u.value ≠ .nan := by
        have hbase : t.base x ≠ .nan := by rw [Band.base]; split <;> assumption
        cases hb : inBand c (t.base x) x with
        | true =>
          obtain ⟨w, e, v, r, hi'⟩ := (Band.sample_cases hi x).1 hb
          rw [e] at h1
          obtain ⟨rfl, rfl⟩ := Prod.mk.inj (Except.ok.inj h1)
          exact ⟨hi', by rw [v]; exact hxx⟩
        | false =>
          obtain ⟨g1, g2⟩ := (Band.sample_cases hi x).2 hb
          by_cases hr : t.rejections + 1 < 2 ^ 31
          · obtain ⟨w, e, r, hi', v⟩ := g2 hr
            rw [e] at h1
            obtain ⟨rfl, rfl⟩ := Prod.mk.inj (Except.ok.inj h1)
            exact ⟨hi', by rw [v]; split <;> assumption⟩
          · rw [g1 (by omega)] at h1; cases h1
      intro o ho
      rcases List.mem_cons.mp ho with rfl | ho
      · exact hu.2
      · exact ih u _ os' (fun y hy => hx y (List.mem_cons_of_mem _ hy)) hu.1 hu.2 h2 o ho
  have hi := Band.inv_reachable hs
  exact key xs (s.reset v) s' os hx ⟨hi.rejections, hi.limits⟩ hv h

theorem count_pos {n : Fl} (h : Fl.le (Arith.ofRat 1 : Fl) n = true) : feq n fzero = false := by
  have e1 : (Arith.ofRat 1 : Fl) = .num false 1 := by decide +kernel
  have e0 : (fzero : Fl) = .num false 0 := Fl.ofRat_zero
  rw [e1] at h
  rw [feq, e0]
  cases n with
  | nan => cases h
  | inf s => cases s with
    | true => cases h
    | false => rfl
  | num s m =>
    have h' : (1 : Rat) ≤ Fl.val (.num s m) := by simpa [Fl.le, Fl.val] using h
    have : Fl.le (.num s m) (.num false 0) = false := by
      simp only [Fl.le, Fl.val, Bool.false_eq_true, if_false, decide_eq_false_iff_not, not_le] at h' ⊢
      linarith
    change (Fl.le _ _ && _) = false
    rw [this, Bool.false_and]

/-- **C189** is false for an `EWMA`: whatever its frame and its history, after one sample that is not a number its value is none either, for ever. -/
theorem C189_average_counterexample (k : Fl) {s : Ewma Fl} (hn : Fl.le fzero s.n = true) (ys : List Fl) : ((s.sample k .nan).samples k ys).value = .nan := by
  have one : ∀ n : Fl, Fl.le fzero n = true → Fl.le (Arith.ofRat 1) (Arith.add n (Arith.ofRat 1)) = true := by
    intro n h
    have := add_mono (a := (Arith.ofRat 1 : Fl)) (by decide +kernel) h
    rwa [show Fl.add fzero (Arith.ofRat 1 : Fl) = (Arith.ofRat 1 : Fl) by decide +kernel] at this
  have zero : ∀ n : Fl, Fl.le (Arith.ofRat 1) n = true → Fl.le fzero n = true := by
    intro n h
    have e1 : (Arith.ofRat 1 : Fl) = .num false 1 := by decide +kernel
    have e0 : (fzero : Fl) = .num false 0 := Fl.ofRat_zero
    rw [e1] at h
    rw [e0]
    cases n with
    | nan => cases h
    | inf s => cases s with
      | true => cases h
      | false => rfl
    | num s m =>
      simp only [Fl.le, Fl.val, Bool.false_eq_true, if_false, decide_eq_true_eq] at h ⊢
      linarith
  have ha : ∀ x : Fl, Arith.add x Fl.nan = .nan := fun x => by cases x <;> rfl
  have ha' : ∀ x : Fl, Arith.add Fl.nan x = .nan := fun x => by cases x <;> rfl
  have hs : ∀ x : Fl, Arith.sub Fl.nan x = .nan := fun x => by cases x <;> rfl
  have hd : ∀ x : Fl, Arith.div Fl.nan x = .nan := fun x => by cases x <;> rfl
  have key : ∀ (ys : List Fl) (t : Ewma Fl), t.value = .nan → Fl.le (Arith.ofRat 1) t.n = true → (t.samples k ys).value = .nan := by
    intro ys
    induction ys with
    | nil => intro t h _; exact h
    | cons y ys ih =>
      intro t h h1
      change ((t.sample k y).samples k ys).value = .nan
      have e : t.sample k y = ⟨Arith.add t.n (Arith.ofRat 1), .nan⟩ := by
        unfold Ewma.sample
        simp only [count_pos h1, Bool.false_eq_true, if_false, h, ha']
      rw [e]
      exact ih _ rfl (one _ (zero _ h1))
  refine key ys _ ?_ ?_
  · unfold Ewma.sample
    simp only
    split
    · rfl
    · simp only [hs, hd, ha]
  · unfold Ewma.sample
    simp only
    split <;> exact one _ hn

/-- **C189** is false for a `BandPass` that is relative and throws, as by default: if its first sample is not a number, it accepts no sample ever. -/
theorem C189_band_counterexample {c : BandCfg Fl} (hr : c.relative = true) (ht : c.throws = true) {xs zs : List Fl} {f : Filter Fl} (h : (Filter.band c).Runs (.nan :: xs) f zs) :
    ∀ z ∈ zs, z = .nan := by
  have key : ∀ {g : Filter Fl} {xs zs : List Fl} {f : Filter Fl}, g.Runs xs f zs → ∀ s : Band Fl, g = { Filter.band c with state := s } → ∀ os s', s.samples c xs = .ok (os, s') →
      zs = os.filterMap (fun o => if o.1 then some o.2 else none) := by
    intro g xs zs f h
    induction h with
    | nil => intro s _ os s' e; cases e; rfl
    | @given f f1 f2 x z xs zs a _ ih =>
      rintro s rfl os s' e
      obtain ⟨⟨ok, u⟩, h1, e⟩ := res_bind e
      obtain ⟨⟨os', u'⟩, h2, e⟩ := res_bind e
      obtain ⟨rfl, rfl⟩ := Prod.mk.inj (Except.ok.inj e)
      have a' : Filter.take { Filter.band c with state := s } x = .ok ({ Filter.band c with state := u }, if ok then some u.value else none) := by
        unfold Filter.take Filter.band
        simp only [h1, res_bind_ok, res_pure]
      rw [a'] at a
      obtain ⟨rfl, e2⟩ := Prod.mk.inj (Except.ok.inj a)
      have := ih u rfl os' u' h2
      cases ok with
      | false => cases e2
      | true =>
        rw [this]
        simp only [if_true] at e2
        simp [← Option.some.inj e2]
    | @thrown f f1 f2 x xs zs a _ ih =>
      rintro s rfl os s' e
      obtain ⟨⟨ok, u⟩, h1, e⟩ := res_bind e
      obtain ⟨⟨os', u'⟩, h2, e⟩ := res_bind e
      obtain ⟨rfl, rfl⟩ := Prod.mk.inj (Except.ok.inj e)
      have a' : Filter.take { Filter.band c with state := s } x = .ok ({ Filter.band c with state := u }, if ok then some u.value else none) := by
        unfold Filter.take Filter.band
        simp only [h1, res_bind_ok, res_pure]
      rw [a'] at a
      obtain ⟨rfl, e2⟩ := Prod.mk.inj (Except.ok.inj a)
      have := ih u rfl os' u' h2
      cases ok with
      | true => cases e2
      | false => rw [this]; simp
  have runs : ∀ {g : Filter Fl} {xs zs : List Fl} {f : Filter Fl}, g.Runs xs f zs → ∀ s : Band Fl, g = { Filter.band c with state := s } → ∃ os s', s.samples c xs = .ok (os, s') := by
    intro g xs zs f h
    have one : ∀ (s : Band Fl) (x : Fl) (f1 : Filter Fl) (o : Option Fl), Filter.take { Filter.band c with state := s } x = .ok (f1, o) →
        ∃ ok u, s.sample c x = .ok (ok, u) ∧ f1 = { Filter.band c with state := u } := by
      intro s x f1 o a
      cases h1 : s.sample c x with
      | error _ => unfold Filter.take Filter.band at a; simp only [h1] at a; cases a
      | ok r =>
        unfold Filter.take Filter.band at a
        simp only [h1, res_bind_ok, res_pure] at a
        exact ⟨r.1, r.2, rfl, (Prod.mk.inj (Except.ok.inj a)).1.symm⟩
    have glue : ∀ (s u : Band Fl) (x : Fl) (xs : List Fl) (ok : Bool), s.sample c x = .ok (ok, u) → (∃ os s', u.samples c xs = .ok (os, s')) → ∃ os s', s.samples c (x :: xs) = .ok (os, s') := by
      rintro s u x xs ok h1 ⟨os, s', h2⟩
      exact ⟨(ok, u.value) :: os, s', by rw [Band.samples, h1, res_bind_ok]; simp only [h2, res_bind_ok]; rfl⟩
    induction h with
    | nil => intro s _; exact ⟨[], s, rfl⟩
    | given a _ ih =>
      rintro s rfl
      obtain ⟨ok, u, h1, h2⟩ := one _ _ _ _ a
      exact glue _ u _ _ ok h1 (ih u h2)
    | thrown a _ ih =>
      rintro s rfl
      obtain ⟨ok, u, h1, h2⟩ := one _ _ _ _ a
      exact glue _ u _ _ ok h1 (ih u h2)
  obtain ⟨os, s', e⟩ := runs h (Band.create c) rfl
  have e' := key h (Band.create c) rfl os s' e
  have all := C49_nan_counterexample hr ht e
  intro z hz
  rw [e'] at hz
  obtain ⟨o, ho, h1⟩ := List.mem_filterMap.mp hz
  split at h1
  · rw [← Option.some.inj h1]; exact all o ho
  · cases h1

/-- A reading between the thresholds, or none at all. -/
def Between (cfg : LatchConfig Fl) (v : Fl) : Prop := Fl.lt cfg.high v = false ∧ Fl.lt v cfg.low = false

/-- **C189** for an `SRLatch`: a reading that is not a number has the effect of one between the thresholds, in any series of readings. -/
theorem C189_latch {cfg : LatchConfig Fl} {v : Fl} (hv : Between cfg v) (l : Latch) (rs : List (Int × Fl)) :
    l.run cfg rs = l.run cfg (rs.map fun r => (r.1, if r.2 = .nan then v else r.2)) := by
  have one : ∀ (l : Latch) (now : Int), l.newReading cfg now .nan = l.newReading cfg now v := by
    intro l now
    have e1 : Arith.lt cfg.high Fl.nan = false := by cases cfg.high <;> rfl
    have e2 : Arith.lt Fl.nan cfg.low = false := by cases cfg.low <;> rfl
    have e3 : Arith.lt cfg.high v = false := hv.1
    have e4 : Arith.lt v cfg.low = false := hv.2
    unfold Latch.newReading
    rw [e1, e2, e3, e4]
  induction rs generalizing l with
  | nil => rfl
  | cons r rs ih =>
    obtain ⟨now, x⟩ := r
    have e : l.newReading cfg now x = l.newReading cfg now (if x = .nan then v else x) := by
      by_cases h : x = .nan
      · rw [if_pos h, h]; exact one l now
      · rw [if_neg h]
    rw [List.map_cons, Latch.run, Latch.run, e]
    cases l.newReading cfg now (if x = .nan then v else x) with
    | error _ => rfl
    | ok l' => simp only [res_bind_ok]; rw [ih l']

/-! Cases that meet the hypotheses. -/

/-- A stack of a band and a mapped range. -/
example : FilterStack.Mends .debug 9 [some (Filter.band { relative := true, width := Fl.ofRat 10, offset := fzero, limit := 10, throws := false }),
    some (Filter.mapped { inLo := Fl.ofRat 0, inHi := Fl.ofRat 100, outLo := Fl.ofRat 0, outHi := Fl.ofRat 1, throws := false })] := by
  refine C189_stack_partial (fs := [Filter.band { relative := true, width := Fl.ofRat 10, offset := fzero, limit := 10, throws := false }, _]) (ks := [9, 0]) (.cons (C189_band _) (.cons (C189_mapped ?_ (by decide +kernel)) .nil))
  intro z hz
  simp only [List.mem_cons, List.not_mem_nil, or_false] at hz
  rcases hz with rfl | rfl | rfl | rfl <;> exact ⟨by decide +kernel, ofRat_ok _, by decide +kernel⟩

/-- It takes that long: after a first sample that is not a number, nine more answers are none, the tenth is. -/
example : ((Band.create { relative := true, width := Fl.ofRat 10, offset := fzero, limit := 10, throws := false }).samples
    { relative := true, width := Fl.ofRat 10, offset := fzero, limit := 10, throws := false } (Fl.nan :: List.replicate 11 (Fl.ofRat 20))).map Prod.fst =
    .ok (List.replicate 10 (true, .nan) ++ List.replicate 2 (true, Fl.ofRat 20)) := by decide +kernel

/-- A mean of 1, an invalid sample, and 2. -/
example : (Ewma.create.samples (Fl.ofRat 10) [Fl.ofRat 1, .nan, Fl.ofRat 2]).value = .nan ∧ ((Ewma.create.samples (Fl.ofRat 10) [Fl.ofRat 1, .nan]).reset (Fl.ofRat 0)).samples (Fl.ofRat 10) [Fl.ofRat 2] =
    ⟨Fl.ofRat 1, Fl.ofRat 2⟩ := by decide +kernel

/-- A latch that is on and stays on. -/
example : Between { high := Fl.ofRat 10, low := Fl.ofRat 5 } (Fl.ofRat 7) ∧
    Latch.responses { high := Fl.ofRat 10, low := Fl.ofRat 5 } 1000 [(1000, Fl.ofRat 11), (2000, .nan), (3000, Fl.ofRat 4)] = .ok [true, true, false] :=
  ⟨⟨by decide +kernel, by decide +kernel⟩, by decide +kernel⟩

end Spine

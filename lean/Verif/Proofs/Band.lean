import Verif.Spec.Filters
import Verif.Core.Bind
/-!
# BandPass: lemmas
-/

namespace Spine
namespace Band

variable {F : Type} [Arith F]

/-- What holds of every filter: the count is not negative, and the limits of an absolute band are in place. -/
structure Inv (c : BandCfg F) (s : Band F) : Prop where
  rejections : 0 ≤ s.rejections
  limits : c.relative = false → s.lower = Arith.sub c.offset c.width ∧ s.upper = Arith.add c.offset c.width

theorem inv_create (c : BandCfg F) : Inv c (create c) :=
  ⟨by simp [create, updateLimits], fun h => by simp [create, updateLimits, h]⟩

/-- The value a sample is compared with. -/
def base (s : Band F) (x : F) : F := if feq s.value unset then x else s.value

theorem sample_cases {c : BandCfg F} {s : Band F} (hi : Inv c s) (x : F) :
    (inBand c (s.base x) x = true → ∃ s', s.sample c x = .ok (true, s') ∧ s'.value = x ∧ s'.rejections = 0 ∧ Inv c s') ∧
    (inBand c (s.base x) x = false → (s.rejections + 1 ≥ 2 ^ 31 → s.sample c x = .error .ub) ∧
      (s.rejections + 1 < 2 ^ 31 → ∃ s', s.sample c x = .ok (decide (s.rejections + 1 ≤ c.limit) || !c.throws, s') ∧ s'.rejections = s.rejections + 1 ∧ Inv c s' ∧
        s'.value = if s.rejections + 1 ≤ c.limit ∨ c.throws = true then s.base x else x)) := by
  obtain ⟨h0, hl⟩ := hi
  have key : ∃ u : Band F, u.value = s.base x ∧ u.rejections = s.rejections ∧ (Inv c u) ∧ (Arith.le u.lower x && Arith.le x u.upper) = inBand c (s.base x) x ∧
      s.sample c x = (do
        if Arith.le u.lower x && Arith.le x u.upper then return (true, { u with value := x, rejections := 0 })
        else
          let v := { u with rejections := ← i32 (u.rejections + 1) }
          if v.rejections > c.limit then if c.throws then return (false, v) else return (true, { v with value := x })
          else return (true, v)) := by
    refine ⟨if c.relative then updateLimits c (if feq s.value unset then s.reset x else s) else (if feq s.value unset then s.reset x else s), ?_, ?_, ?_, ?_, rfl⟩
    · unfold base; cases c.relative <;> cases feq s.value unset <;> rfl
    · cases c.relative <;> cases feq s.value unset <;> rfl
    · constructor
      · cases c.relative <;> cases feq s.value unset <;> exact h0
      · intro h
        have := hl h
        rw [h]
        cases feq s.value unset <;> exact this
    · unfold inBand base
      cases hr : c.relative
      · obtain ⟨a, b⟩ := hl hr
        cases feq s.value unset <;> simp [reset, a, b]
      · cases feq s.value unset <;> simp [updateLimits, reset, hr]
  obtain ⟨u, u1, u2, u3, u4, u5⟩ := key
  rw [u5, u4]
  constructor
  · intro h
    rw [if_pos h]
    exact ⟨_, rfl, rfl, rfl, ⟨le_refl _, u3.limits⟩⟩
  · intro h
    rw [h]
    simp only [Bool.false_eq_true, if_false]
    rw [u2]
    constructor
    · intro hb
      rw [i32, if_neg (by omega)]
      rfl
    · intro hb
      rw [i32, if_pos ⟨by omega, hb⟩]
      simp only [res_bind_ok]
      by_cases hlim : s.rejections + 1 > c.limit
      · rw [if_pos hlim]
        have hn : ¬ s.rejections + 1 ≤ c.limit := by omega
        cases ht : c.throws
        · exact ⟨{ u with rejections := s.rejections + 1, value := x }, by simp [hn], rfl, ⟨by simp only; omega, u3.limits⟩, by simp [hn]⟩
        · exact ⟨{ u with rejections := s.rejections + 1 }, by simp [hn], rfl, ⟨by simp only; omega, u3.limits⟩, by simp [u1]⟩
      · rw [if_neg hlim]
        have hn : s.rejections + 1 ≤ c.limit := by omega
        exact ⟨{ u with rejections := s.rejections + 1 }, by simp [hn], rfl, ⟨by simp only; omega, u3.limits⟩, by simp [hn, u1]⟩

theorem inv_sample {c : BandCfg F} {s s' : Band F} {x : F} {f : Bool} (hi : Inv c s) (h : s.sample c x = .ok (f, s')) : Inv c s' := by
  obtain ⟨h1, h2⟩ := sample_cases hi x
  cases hb : inBand c (s.base x) x
  · obtain ⟨a, b⟩ := h2 hb
    by_cases hr : s.rejections + 1 < 2 ^ 31
    · obtain ⟨t, e, -, ht, -⟩ := b hr
      rw [e] at h; cases h; exact ht
    · rw [a (by omega)] at h; cases h
  · obtain ⟨t, e, -, -, ht⟩ := h1 hb
    rw [e] at h; cases h; exact ht

theorem inv_run {c : BandCfg F} (ops : List (Op F)) : ∀ s s' : Band F, Inv c s → s.run c ops = .ok s' → Inv c s' := by
  induction ops with
  | nil => intro s s' hi h; cases h; exact hi
  | cons op ops ih =>
    intro s s' hi h
    simp only [run] at h
    obtain ⟨⟨f, t⟩, h1, h⟩ := res_bind h
    refine ih t s' ?_ h
    cases op with
    | sample x => exact inv_sample hi h1
    | reset v => cases h1; exact ⟨hi.rejections, hi.limits⟩

theorem inv_reachable {c : BandCfg F} {s : Band F} (h : Reachable c s) : Inv c s := by
  obtain ⟨ops, h⟩ := h
  exact inv_run ops _ _ (inv_create c) h

/-- Each sample of a series is accepted, throws, or adds to the count. -/
theorem samples_count {c : BandCfg F} (xs : List F) : ∀ (s s' : Band F) (os : List (Bool × F)), Inv c s → s.samples c xs = .ok (os, s') →
    os.length = xs.length ∧
    ((∃ (i : Nat) (x : F), xs[i]? = some x ∧ (os[i]? = some (true, x) ∨ (c.throws = true ∧ ∃ v, os[i]? = some (false, v)))) ∨
      s.rejections + xs.length ≤ c.limit ∨ xs = []) := by
  induction xs with
  | nil => intro s s' os _ h; cases h; exact ⟨rfl, Or.inr (Or.inr rfl)⟩
  | cons x xs ih =>
    intro s s' os hi h
    simp only [samples] at h
    obtain ⟨⟨f, t⟩, h1, h⟩ := res_bind h
    obtain ⟨⟨os', t'⟩, h2, h⟩ := res_bind h
    cases h
    have hit := inv_sample hi h1
    obtain ⟨l1, l2⟩ := ih t t' os' hit h2
    refine ⟨by simp [l1], ?_⟩
    obtain ⟨c1, c2⟩ := sample_cases hi x
    cases hb : inBand c (s.base x) x
    · obtain ⟨a, b⟩ := c2 hb
      have hr : s.rejections + 1 < 2 ^ 31 := by
        by_contra hc
        rw [a (by omega)] at h1; cases h1
      obtain ⟨t1, e, r1, -, v1⟩ := b hr
      rw [e] at h1
      cases h1
      by_cases hlim : s.rejections + 1 ≤ c.limit
      · rcases l2 with ⟨i, y, g1, g2⟩ | l2 | l2
        · exact Or.inl ⟨i + 1, y, by simpa using g1, by simpa using g2⟩
        · refine Or.inr (Or.inl ?_)
          rw [r1] at l2
          simp only [List.length_cons, Nat.cast_add, Nat.cast_one]
          omega
        · subst l2
          exact Or.inr (Or.inl (by simpa using hlim))
      · refine Or.inl ⟨0, x, rfl, ?_⟩
        cases ht : c.throws
        · left
          rw [if_neg (by simp [hlim, ht])] at v1
          simp [v1]
        · right
          exact ⟨rfl, t.value, by simp [hlim]⟩
    · obtain ⟨t1, e, v1, -⟩ := c1 hb
      rw [e] at h1
      cases h1
      exact Or.inl ⟨0, x, rfl, Or.inl (by simp [v1])⟩

/-- Outliers below the limit leave the value alone. -/
theorem samples_outliers {c : BandCfg F} {v : F} (hv : feq v unset = false) (xs : List F) : ∀ s : Band F, Inv c s → s.value = v → (∀ x ∈ xs, inBand c v x = false) →
    s.rejections + xs.length ≤ c.limit → c.limit < 2 ^ 31 →
    ∃ s', s.samples c xs = .ok (List.replicate xs.length (true, v), s') ∧ s'.value = v := by
  induction xs with
  | nil => intro s _ h _ _ _; exact ⟨s, rfl, h⟩
  | cons x xs ih =>
    intro s hi hs hx hlim hc
    have hbase : s.base x = v := by rw [base, hs, hv]; rfl
    simp only [List.length_cons, Nat.cast_add, Nat.cast_one] at hlim
    obtain ⟨t, e, r, hit, vt⟩ := ((sample_cases hi x).2 (by rw [hbase]; exact hx x List.mem_cons_self)).2 (by omega)
    rw [if_pos (Or.inl (by omega)), hbase] at vt
    obtain ⟨s', e', vs⟩ := ih t hit vt (fun y hy => hx y (List.mem_cons_of_mem _ hy)) (by rw [r]; omega) hc
    refine ⟨s', ?_, vs⟩
    have hd : decide (s.rejections + 1 ≤ c.limit) = true := decide_eq_true (by omega)
    rw [samples, e, res_bind_ok, hd]
    simp only [e', res_bind_ok, vt, Bool.true_or]
    rfl

end Band
end Spine

import Verif.Props.Latch
import Mathlib.Tactic.Linarith
/-!
# C148: the latch as a controller

A latch that switches a fan (or a pump that empties a tank): while it is off, the measured quantity rises by at most `up` per millisecond, while it is on, it falls
by at most `down` per millisecond.
-/

namespace Spine
open Latch

/-- What the process does: between two readings at most `gap` apart, the quantity rises if the latch is off, and falls if it is on. `on` is the response before, `t` and `x` are the
time and the quantity of the reading before; `os` are the responses after each of the readings `rs`. -/
def Evolves (up down : Rat) (gap : Int) : Bool → Int → Rat → List (Int × Rat) → List Bool → Prop
  | on, t, x, (t', x') :: rs, o :: os =>
    t' - t ≤ gap ∧ (if on then x - down * (t' - t : Int) ≤ x' ∧ x' ≤ x else x ≤ x' ∧ x' ≤ x + up * (t' - t : Int)) ∧ Evolves up down gap o t' x' rs os
  | _, _, _, _, _ => True

namespace TwoPoint

variable {cfg : LatchConfig Rat} {up down : Rat} {gap T : Int}

/-- The highest quantity: `high` or what is reached from `low` within the minimal off time, and what is added until the next reading. The last terms are the rounding of times, 0 below 2^24. -/
def upper (cfg : LatchConfig Rat) (up : Rat) (gap T : Int) : Rat :=
  max cfg.high (cfg.low + up * cfg.minOff) + up * (gap + (2 * (cfg.minOff / 2 ^ 24) + T / 2 ^ 24) : Int)

/-- The lowest quantity, likewise. -/
def lower (cfg : LatchConfig Rat) (down : Rat) (gap T : Int) : Rat :=
  min cfg.low (cfg.high - down * cfg.minOn) - down * (gap + (cfg.minOn / 2 ^ 24 + T / 2 ^ 24) : Int)

/-- What is known after a reading at `t`. -/
structure Inv (cfg : LatchConfig Rat) (up down : Rat) (gap T : Int) (l : Latch) (t : Int) (x : Rat) : Prop where
  last : l.turned.last ≤ t
  size : |l.turned.last| ≤ T
  off : l.on = false → x ≤ max cfg.high (cfg.low + up * cfg.minOff) + up * (t - l.turned.last - cfg.minOff + cfg.minOff / 2 ^ 24 : Int) ∧
    x ≤ upper cfg up 0 T
  on : l.on = true → cfg.high - down * (t - l.turned.last : Int) ≤ x ∧ lower cfg down 0 T ≤ x
  above : lower cfg down gap T ≤ x
  below : x ≤ upper cfg up gap T

theorem upper_mono (hu : 0 ≤ up) (hg : 0 ≤ gap) : upper cfg up 0 T ≤ upper cfg up gap T := by
  unfold upper
  have : up * ((0 + (2 * (cfg.minOff / 2 ^ 24) + T / 2 ^ 24) : Int) : Rat) ≤ up * ((gap + (2 * (cfg.minOff / 2 ^ 24) + T / 2 ^ 24) : Int) : Rat) :=
    mul_le_mul_of_nonneg_left (by exact_mod_cast (by omega)) hu
  linarith

theorem lower_mono (hd : 0 ≤ down) (hg : 0 ≤ gap) : lower cfg down gap T ≤ lower cfg down 0 T := by
  unfold lower
  have : down * ((0 + (cfg.minOn / 2 ^ 24 + T / 2 ^ 24) : Int) : Rat) ≤ down * ((gap + (cfg.minOn / 2 ^ 24 + T / 2 ^ 24) : Int) : Rat) :=
    mul_le_mul_of_nonneg_left (by exact_mod_cast (by omega)) hd
  linarith

theorem inv_step (hu : 0 ≤ up) (hd : 0 ≤ down) (hg : 0 ≤ gap) (h0 : 0 ≤ cfg.minOff) (h1 : 0 ≤ cfg.minOn) (hm : cfg.maxOn = 0) (hm' : cfg.maxOff = 0)
    {l : Latch} {t t' : Int} {x x' : Rat} (hi : Inv cfg up down gap T l t x) (ht : t ≤ t') (hT : |t'| ≤ T) (hgap : t' - t ≤ gap)
    (he : if l.on then x - down * (t' - t : Int) ≤ x' ∧ x' ≤ x else x ≤ x' ∧ x' ≤ x + up * (t' - t : Int)) :
    Inv cfg up down gap T (next cfg l t' (t' - near l.turned.last) x') t' x' := by
  obtain ⟨a1, a2, a3, a4, a5, a6⟩ := hi
  have hT0 : 0 ≤ T := (abs_nonneg _).trans hT
  have e1 := near_bound l.turned.last
  have e2 : |l.turned.last| / 2 ^ 24 ≤ T / 2 ^ 24 := Int.ediv_le_ediv (by norm_num) a2
  rw [abs_le] at e1
  have hMh : cfg.high ≤ max cfg.high (cfg.low + up * cfg.minOff) := le_max_left _ _
  have hMl : cfg.low + up * cfg.minOff ≤ max cfg.high (cfg.low + up * cfg.minOff) := le_max_right _ _
  have hml : min cfg.low (cfg.high - down * cfg.minOn) ≤ cfg.low := min_le_left _ _
  have hmh : min cfg.low (cfg.high - down * cfg.minOn) ≤ cfg.high - down * cfg.minOn := min_le_right _ _
  have sp : 0 ≤ up * ((2 * (cfg.minOff / 2 ^ 24) + T / 2 ^ 24 : Int) : Rat) := mul_nonneg hu (by exact_mod_cast (by positivity))
  have sn : 0 ≤ down * ((cfg.minOn / 2 ^ 24 + T / 2 ^ 24 : Int) : Rat) := mul_nonneg hd (by exact_mod_cast (by positivity))
  have um := upper_mono (cfg := cfg) (T := T) hu hg
  have lm := lower_mono (cfg := cfg) (T := T) hd hg
  have dgu : up * ((t' - t : Int) : Rat) ≤ up * (gap : Rat) := mul_le_mul_of_nonneg_left (by exact_mod_cast hgap) hu
  have dgd : down * ((t' - t : Int) : Rat) ≤ down * (gap : Rat) := mul_le_mul_of_nonneg_left (by exact_mod_cast hgap) hd
  -- the band
  have hb : lower cfg down gap T ≤ x' ∧ x' ≤ upper cfg up gap T := by
    cases hon : l.on
    · simp only [hon, Bool.false_eq_true, if_false] at he
      refine ⟨by linarith, ?_⟩
      have := (a3 hon).2
      unfold upper at this ⊢
      push_cast at this dgu he ⊢
      linarith
    · simp only [hon, if_true] at he
      refine ⟨?_, by linarith⟩
      have := (a4 hon).2
      unfold lower at this ⊢
      push_cast at this dgd he ⊢
      linarith
  have e3 := near_bound cfg.minOff
  have e4 := near_bound cfg.minOn
  rw [abs_of_nonneg h0, abs_le] at e3
  rw [abs_of_nonneg h1, abs_le] at e4
  have hsetT : ∀ b, (Latch.set b t').on = b ∧ (Latch.set b t').turned.last = t' := fun b => ⟨rfl, rfl⟩
  unfold next
  cases hon : l.on
  · simp only [hon, Bool.false_eq_true, if_false, hm', ne_eq, not_true_eq_false, false_and] at he ⊢
    obtain ⟨o1, o2⟩ := a3 hon
    have o1' : x' ≤ max cfg.high (cfg.low + up * cfg.minOff) + up * ((t' - l.turned.last - cfg.minOff + cfg.minOff / 2 ^ 24 : Int) : Rat) := by
      push_cast at o1 he ⊢
      linarith
    split
    · next hw =>
      refine ⟨a1.trans ht, a2, fun _ => ⟨o1', ?_⟩, fun h => by simp [hon] at h, hb.1, hb.2⟩
      refine o1'.trans ?_
      unfold upper
      have : up * ((t' - l.turned.last - cfg.minOff + cfg.minOff / 2 ^ 24 : Int) : Rat) ≤ up * ((0 + (2 * (cfg.minOff / 2 ^ 24) + T / 2 ^ 24) : Int) : Rat) := by
        refine mul_le_mul_of_nonneg_left ?_ hu
        exact_mod_cast (by omega)
      linarith
    · next hw =>
      split
      · next hv =>
        simp only [Arith.lt, decide_eq_true_eq] at hv
        refine ⟨le_rfl, hT, fun h => by simp [Latch.set] at h, fun _ => ⟨?_, ?_⟩, hb.1, hb.2⟩
        · simp only [hsetT, sub_self, Int.cast_zero, mul_zero, sub_zero]; exact hv.le
        · unfold lower
          have := mul_nonneg hd (by exact_mod_cast h1 : (0 : Rat) ≤ (cfg.minOn : Rat))
          push_cast at sn ⊢
          linarith
      · next hv =>
        simp only [Arith.lt, decide_eq_true_eq, not_lt] at hv
        split
        · next hv' =>
          simp only [Arith.lt, decide_eq_true_eq] at hv'
          refine ⟨le_rfl, hT, fun _ => ⟨?_, ?_⟩, fun h => by simp [Latch.set] at h, hb.1, hb.2⟩
          · simp only [hsetT]
            have : 0 ≤ up * ((cfg.minOff / 2 ^ 24 : Int) : Rat) := mul_nonneg hu (by exact_mod_cast (by positivity))
            push_cast at this ⊢
            linarith
          · unfold upper
            push_cast at sp ⊢
            linarith
        · refine ⟨a1.trans ht, a2, fun _ => ⟨o1', ?_⟩, fun h => by simp [hon] at h, hb.1, hb.2⟩
          unfold upper
          push_cast at sp ⊢
          linarith
  · simp only [hon, if_true, hm, ne_eq, not_true_eq_false, false_and, if_false] at he ⊢
    obtain ⟨o1, o2⟩ := a4 hon
    have o1' : cfg.high - down * ((t' - l.turned.last : Int) : Rat) ≤ x' := by
      push_cast at o1 he ⊢
      linarith
    split
    · next hw =>
      refine ⟨a1.trans ht, a2, fun h => by simp [hon] at h, fun _ => ⟨o1', ?_⟩, hb.1, hb.2⟩
      refine le_trans ?_ o1'
      unfold lower
      have : down * ((t' - l.turned.last : Int) : Rat) ≤ down * ((cfg.minOn + (cfg.minOn / 2 ^ 24 + T / 2 ^ 24) : Int) : Rat) := by
        refine mul_le_mul_of_nonneg_left ?_ hd
        exact_mod_cast (by omega)
      push_cast at this ⊢
      linarith
    · next hw =>
      split
      · next hv =>
        simp only [Arith.lt, decide_eq_true_eq] at hv
        refine ⟨le_rfl, hT, fun h => by simp [Latch.set] at h, fun _ => ⟨?_, ?_⟩, hb.1, hb.2⟩
        · simp only [hsetT, sub_self, Int.cast_zero, mul_zero, sub_zero]; exact hv.le
        · unfold lower
          have := mul_nonneg hd (by exact_mod_cast h1 : (0 : Rat) ≤ (cfg.minOn : Rat))
          push_cast at sn ⊢
          linarith
      · next hv =>
        simp only [Arith.lt, decide_eq_true_eq, not_lt] at hv
        split
        · next hv' =>
          simp only [Arith.lt, decide_eq_true_eq] at hv'
          refine ⟨le_rfl, hT, fun _ => ⟨?_, ?_⟩, fun h => by simp [Latch.set] at h, hb.1, hb.2⟩
          · simp only [hsetT]
            have : 0 ≤ up * ((cfg.minOff / 2 ^ 24 : Int) : Rat) := mul_nonneg hu (by exact_mod_cast (by positivity))
            push_cast at this ⊢
            linarith
          · unfold upper
            push_cast at sp ⊢
            linarith
        · next hv' =>
          simp only [Arith.lt, decide_eq_true_eq, not_lt] at hv'
          refine ⟨a1.trans ht, a2, fun h => by simp [hon] at h, fun _ => ⟨o1', ?_⟩, hb.1, hb.2⟩
          unfold lower
          push_cast at sn ⊢
          linarith

theorem inv_run (hs : Sane cfg (2 ^ 62)) (hu : 0 ≤ up) (hd : 0 ≤ down) (hg : 0 ≤ gap) (h0 : 0 ≤ cfg.minOff) (h1 : 0 ≤ cfg.minOn) (hm : cfg.maxOn = 0) (hm' : cfg.maxOff = 0)
    (hT : T ≤ 2 ^ 61) : ∀ (rs : List (Int × Rat)) {l l' : Latch} {t t1 : Int} {x : Rat} {os : List Bool}, Inv cfg up down gap T l t x → Times t rs t1 → |t1| ≤ T → |t| ≤ T →
      run cfg l rs = .ok (os, l') → Evolves up down gap l.on t x rs os → ∀ r ∈ rs, lower cfg down gap T ≤ r.2 ∧ r.2 ≤ upper cfg up gap T := by
  intro rs
  induction rs with
  | nil => intro l l' t t1 x os _ _ _ _ _ _ r hr; simp at hr
  | cons r rs ih =>
    intro l l' t t1 x os hi ht ht1 htT h he
    obtain ⟨t', x'⟩ := r
    have hn := ht.2 (t', x') (by simp)
    simp only at hn
    have hp := ht.1
    simp only [List.map_cons, List.pairwise_cons] at hp
    have hT' : |t'| ≤ T := by rw [abs_le] at *; omega
    simp only [run, newReading_eq hs (hi.size.trans hT) (hT'.trans hT), res_bind_ok] at h
    cases hq : run cfg (next cfg l t' (t' - near l.turned.last) x') rs with
    | error e => rw [hq] at h; simp only [res_bind_error] at h; cases h
    | ok y =>
      obtain ⟨os1, l2⟩ := y
      rw [hq] at h
      simp only [res_bind_ok, res_pure, Except.ok.injEq, Prod.mk.injEq] at h
      obtain ⟨rfl, rfl⟩ := h
      rw [Evolves] at he
      have hi' := inv_step hu hd hg h0 h1 hm hm' hi hn.1 hT' he.1 he.2.1
      intro r hr
      rcases List.mem_cons.mp hr with rfl | hr
      · exact ⟨hi'.above, hi'.below⟩
      · exact ih hi' ⟨hp.2, fun r hr => ⟨hp.1 r.1 (List.mem_map_of_mem hr), (ht.2 r (by simp [hr])).2⟩⟩ ht1 hT' hq he.2.2 r hr

end TwoPoint

open TwoPoint

/-- **C148.** A latch without maximal times keeps the quantity within a band, for any process that rises by at most `up` per millisecond while the latch is off and falls by at most `down`
while it is on, and any readings at most `gap` milliseconds apart: above, the thresholds are exceeded at most by what is added in the minimal off time, counted from `low`, and until
the next reading; below, likewise. -/
theorem C148_band {cfg : LatchConfig Rat} {up down : Rat} {gap T t0 t1 : Int} {x0 : Rat} {rs : List (Int × Rat)} {os : List Bool} (hs : Sane cfg (2 ^ 60)) (hu : 0 ≤ up) (hd : 0 ≤ down)
    (hg : 0 ≤ gap) (h0 : 0 ≤ cfg.minOff) (h1 : 0 ≤ cfg.minOn) (hm : cfg.maxOn = 0) (hm' : cfg.maxOff = 0) (hT : T ≤ 2 ^ 60) (hT0 : |t0| + 2 * cfg.minOff ≤ T) (hT1 : |t1| ≤ T)
    (hx : lower cfg down gap T ≤ x0) (hx' : x0 ≤ cfg.high) (hrs : Times t0 rs t1) (h : responses cfg t0 rs = .ok os) (he : Evolves up down gap false t0 x0 rs os) :
    ∀ r ∈ rs, lower cfg down gap T ≤ r.2 ∧ r.2 ≤ upper cfg up gap T := by
  have hs' : Sane cfg (2 ^ 62) := ⟨hs.1.trans (by norm_num), hs.2.trans (by norm_num), hs.3.trans (by norm_num), hs.4.trans (by norm_num)⟩
  obtain ⟨l0, hc, hoff, hl0, hl0', -⟩ := create_ok hs h0 (t0 := t0) (by omega)
  simp only [responses, hc, res_bind_ok] at h
  cases hq : run cfg l0 rs with
  | error e => rw [hq] at h; simp only [res_bind_error] at h; cases h
  | ok y =>
    obtain ⟨os1, l2⟩ := y
    rw [hq] at h
    simp only [res_bind_ok, res_pure, Except.ok.injEq] at h
    subst h
    have e3 := near_bound cfg.minOff
    rw [abs_of_nonneg h0, abs_le] at e3
    have hTn : 0 ≤ T := (abs_nonneg _).trans hT1
    have hMh : cfg.high ≤ max cfg.high (cfg.low + up * cfg.minOff) := le_max_left _ _
    have hup : x0 ≤ upper cfg up 0 T := by
      unfold upper
      have : 0 ≤ up * ((0 + (2 * (cfg.minOff / 2 ^ 24) + T / 2 ^ 24) : Int) : Rat) := mul_nonneg hu (by exact_mod_cast (by positivity))
      linarith
    refine inv_run hs' hu hd hg h0 h1 hm hm' (hT.trans (by norm_num)) rs (l := l0) (t := t0) (x := x0) ⟨hl0', ?_, fun _ => ⟨?_, hup⟩, fun h => by (rw [hoff] at h; cases h), hx,
      hup.trans (upper_mono hu hg)⟩ hrs hT1 (by omega) hq (by rw [hoff]; exact he)
    · rw [hl0]
      have : |near cfg.minOff| ≤ 2 * cfg.minOff := by
        rw [abs_le]
        constructor <;> omega
      rw [abs_le] at *
      have := neg_abs_le t0
      have := le_abs_self t0
      constructor <;> omega
    · rw [hl0]
      have : 0 ≤ up * ((t0 - (t0 - near cfg.minOff) - cfg.minOff + cfg.minOff / 2 ^ 24 : Int) : Rat) := mul_nonneg hu (by exact_mod_cast (by omega))
      linarith

/-- The process of the examples: `fan` of C41, read every 5 ms, rises by 1/2 per ms and falls by 1 per ms. It is 32 when a reading finds it above `high`, and falls to 12 within the
minimal on time of 20 ms; the band is from 5 to 65/2. -/
def warm : List (Int × Rat) := [(5, 59/2), (10, 32), (15, 27), (20, 22), (25, 17), (30, 12), (35, 29/2), (40, 17), (45, 39/2), (50, 22)]

example : responses fan 0 warm = .ok [false, true, true, true, true, false, false, false, false, false] ∧ Times 0 warm 50 ∧
    lower fan 1 5 100 = 5 ∧ upper fan (1/2) 5 100 = 65/2 := by
  refine ⟨by decide +kernel, by decide +kernel, ?_, ?_⟩ <;> norm_num [lower, upper, fan]

example : Evolves (1/2) 1 5 false 0 27 warm [false, true, true, true, true, false, false, false, false, false] := by
  norm_num [Evolves, warm]

/-- C148 is false with a maximal on time: the latch goes off however high the quantity is, and stays off for the minimal off time. The process below, which does not fall while the
latch is on, climbs above the band, and would go on climbing. -/
theorem C148_maximal_counterexample :
    ∃ (cfg : LatchConfig Rat) (rs : List (Int × Rat)) (os : List Bool), cfg.maxOn ≠ 0 ∧ cfg.maxOff = 0 ∧ Times 0 rs 150 ∧ responses cfg 0 rs = .ok os ∧
      Evolves 1 1 26 false 0 30 rs os ∧ ∃ r ∈ rs, upper cfg 1 26 170 < r.2 := by
  refine ⟨{ high := 30, low := 20, minOff := 10, maxOn := 25 }, [(1, 31), (27, 31), (37, 41), (63, 41), (73, 51), (99, 51), (109, 61)], [true, false, true, false, true, false, true],
    by decide, rfl, by decide +kernel, by decide +kernel, ?_, (109, 61), by simp, ?_⟩
  · norm_num [Evolves]
  · norm_num [upper]

end Spine

import Verif.Props.Tuner
/-!
# Exactly which amplitude the relay tuner uses, C81
-/

namespace Spine
open Tuner

theorem foldl_max_spec (l : List Rat) : ∀ a : Rat, (l.foldl max a ∈ a :: l) ∧ ∀ x ∈ a :: l, x ≤ l.foldl max a := by
  induction l with
  | nil => intro a; simp
  | cons y l ih =>
    intro a
    rw [List.foldl_cons]
    obtain ⟨h1, h2⟩ := ih (max a y)
    have h3 := h2 _ List.mem_cons_self
    refine ⟨?_, ?_⟩
    · rcases List.mem_cons.mp h1 with h | h
      · rw [h]
        rcases max_choice a y with h' | h' <;> rw [h'] <;> simp
      · simp [h]
    · intro x hx
      rcases List.mem_cons.mp hx with rfl | hx
      · exact (le_max_left _ _).trans h3
      · rcases List.mem_cons.mp hx with rfl | hx
        · exact (le_max_right _ _).trans h3
        · exact h2 x (List.mem_cons_of_mem _ hx)

/-- **C81, exactly,** in exact arithmetic: for every oscillation the gains are those of relay tuning with `seen` in place of the highest reading `hi` of the cycle, where `seen` is
the highest of the readings after the one that switched the output off, and of the set point. They are the right gains if and only if `seen` is `hi`, and too large otherwise. -/
theorem C81_exact {t : Tuner Rat} (ht : AtStart t) (hh : 0 ≤ t.hysteresis) {xs ys : List (Rat × Int)} {x1 y1 : Rat} {m1 m2 : Int}
    (hxs : ∀ r ∈ xs, r.1 ≤ t.target + t.hysteresis) (hx1 : t.target + t.hysteresis < x1) (hys : ∀ r ∈ ys, t.target - t.hysteresis ≤ r.1)
    (hy1 : y1 < t.target - t.hysteresis) (hm : t.t2 ≤ m1) (hm' : m1 ≤ m2) (hm2 : m2 ≤ 2 ^ 24) (hcyc : -2 ^ 31 ≤ t.cycle ∧ t.cycle + 1 < 2 ^ 31)
    {hi lo seen : Rat} (hhi : hi ∈ (xs ++ [(x1, m1)] ++ ys ++ [(y1, m2)]).map Prod.fst ∧ ∀ r ∈ xs ++ [(x1, m1)] ++ ys ++ [(y1, m2)], r.1 ≤ hi)
    (hlo : lo ∈ (xs ++ [(x1, m1)] ++ ys ++ [(y1, m2)]).map Prod.fst ∧ ∀ r ∈ xs ++ [(x1, m1)] ++ ys ++ [(y1, m2)], lo ≤ r.1)
    (hseen : seen ∈ t.target :: ys.map Prod.fst ∧ ∀ x ∈ t.target :: ys.map Prod.fst, x ≤ seen) (hrange : t.minOutput < t.maxOutput) :
    ∃ u : Tuner Rat, t.play (xs ++ [(x1, m1)] ++ ys ++ [(y1, m2)]) = .ok u ∧ u.cycle = t.cycle + 1 ∧ u.t2 = m2 ∧
      (u.finished = false → AtStart u ∧
        (u.kp, u.ki, u.kd) = relayGains t.mode ((t.maxOutput - t.minOutput) / 2) ((seen - lo) / 2) ((m2 - t.t2 : Int) : Rat) t.loopInterval ∧
        ((u.kp, u.ki, u.kd) = relayGains t.mode ((t.maxOutput - t.minOutput) / 2) ((hi - lo) / 2) ((m2 - t.t2 : Int) : Rat) t.loopInterval ↔ seen = hi) ∧
        (seen ≠ hi → (relayGains t.mode ((t.maxOutput - t.minOutput) / 2) ((hi - lo) / 2) ((m2 - t.t2 : Int) : Rat) t.loopInterval).1 < u.kp)) := by
  obtain ⟨t1, t2, t3, t4⟩ := ht
  have e1 := play_still xs t t4 (by intro r hr; rw [t1, if_pos rfl, not_lt]; exact hxs r hr)
  have e2 := step_off (t := { t with max := (xs.map Prod.fst).foldl max t.max, min := (xs.map Prod.fst).foldl min t.min }) (x := x1) (ms := m1) t4 t1 hh hx1 t3 hm (by omega)
  have e3 := play_still ys { t with on := false, outputValue := t.minOutput, t1 := m1, tHigh := m1 - t.t2, max := t.target, min := min ((xs.map Prod.fst).foldl min t.min) x1 }
    t4 (by intro r hr; rw [if_neg (by simp)]; exact not_lt.mpr (hys r hr))
  obtain ⟨u, f1, f2, f3, f4, f5, f6, f7, f8, f9⟩ := step_on (t := { t with on := false, outputValue := t.minOutput, t1 := m1, tHigh := m1 - t.t2, max := (ys.map Prod.fst).foldl max t.target, min := (ys.map Prod.fst).foldl min (min ((xs.map Prod.fst).foldl min t.min) x1) })
    (x := y1) (ms := m2) rfl hy1 (by simp only; omega) hm' hm2 (by simp only; omega) (by simp only; omega) (by simp only; omega) hcyc.2
  refine ⟨finish u, ?_, ?_, ?_, ?_⟩
  · rw [play_append, play_append, play_append, e1, res_bind_ok]
    simp only [play]
    rw [e2, res_bind_ok, res_bind_ok, e3, res_bind_ok, f1]
    rfl
  · rw [(finish_cycle u).1, f5]
  · unfold finish; split <;> exact f4
  · intro hfin
    have hu : u.finished = false := (finish_cycle u).2.2.1 ▸ hfin
    have hfu : finish u = u := by unfold finish; rw [if_neg (by simp [hu])]
    rw [hfu]
    have hy1lo : lo ≤ y1 := hlo.2 (y1, m2) (by simp)
    have hts : t.target ≤ seen := hseen.2 _ List.mem_cons_self
    have ex : max ((ys.map Prod.fst).foldl max t.target) y1 = seen := by
      obtain ⟨g1, g2⟩ := foldl_max_spec (ys.map Prod.fst) t.target
      rw [le_antisymm (hseen.2 _ g1) (g2 _ hseen.1), max_eq_left]
      linarith
    have en : min ((ys.map Prod.fst).foldl min (min ((xs.map Prod.fst).foldl min t.min) x1)) y1 = lo := by
      have : min ((ys.map Prod.fst).foldl min (min ((xs.map Prod.fst).foldl min t.min) x1)) y1 = ((xs ++ [(x1, m1)] ++ ys ++ [(y1, m2)]).map Prod.fst).foldl min t.min := by
        simp [List.foldl_append]
      rw [this]
      refine foldl_min_le (by linarith) ?_ (Or.inl hlo.1)
      intro x hx
      obtain ⟨r, hr, rfl⟩ := List.mem_map.mp hx
      exact hlo.2 r hr
    have key : (u.kp, u.ki, u.kd) = relayGains t.mode ((t.maxOutput - t.minOutput) / 2) ((seen - lo) / 2) ((m2 - t.t2 : Int) : Rat) t.loopInterval := by
      rw [f9]
      simp only
      rw [ex, en]
      congr 2
      omega
    have hx1hi : x1 ≤ hi := hhi.2 (x1, m1) (by simp)
    have hsh : seen ≤ hi := by
      rcases List.mem_cons.mp hseen.1 with h | h
      · linarith
      · obtain ⟨r, hr, h⟩ := List.mem_map.mp h
        rw [← h]; exact hhi.2 r (by simp [hr])
    have hless : seen ≠ hi → (relayGains t.mode ((t.maxOutput - t.minOutput) / 2) ((hi - lo) / 2) ((m2 - t.t2 : Int) : Rat) t.loopInterval).1 < u.kp := by
      intro hne
      have hlt : seen < hi := lt_of_le_of_ne hsh hne
      have hk : u.kp = (relayGains t.mode ((t.maxOutput - t.minOutput) / 2) ((seen - lo) / 2) ((m2 - t.t2 : Int) : Rat) t.loopInterval).1 := by rw [← key]
      rw [hk]
      simp only [relayGains]
      have hz : 0 < (znTable t.mode).1 := by cases t.mode <;> norm_num [znTable]
      have hd : 0 < 4 * ((t.maxOutput - t.minOutput) / 2) := by linarith
      have ha : 0 < (seen - lo) / 2 := by linarith
      refine mul_lt_mul_of_pos_left ?_ hz
      refine div_lt_div_of_pos_left hd (by positivity) ?_
      refine mul_lt_mul_of_pos_left ?_ (by norm_num)
      linarith
    refine ⟨⟨f2, by rw [f3, f7], by rw [f4]; omega, hu⟩, key, ⟨fun he => ?_, fun he => by rw [← he]; exact key⟩, hless⟩
    by_contra hne
    have := hless hne
    rw [← he] at this
    exact lt_irrefl _ this

/-- Non-vacuity: the oscillation of `C81_peak_counterexample`, where the peak of 60 is not counted and the highest reading after it is 50. -/
example : let t := Tuner.start (50 : Rat) 1 100 0 255 .basic 3 1000
    AtStart t ∧ (∀ r ∈ [((45 : Rat), (1000 : Int))], r.1 ≤ t.target + t.hysteresis) ∧ t.target + t.hysteresis < 60 ∧ (40 : Rat) < t.target - t.hysteresis ∧
      ((50 : Rat) ∈ t.target :: [((50 : Rat), (1300 : Int))].map Prod.fst) ∧ t.minOutput < t.maxOutput := by
  refine ⟨(C81_start (by norm_num) (by norm_num) (by norm_num)).1, ?_, ?_, ?_, ?_, ?_⟩ <;> simp [Tuner.start] <;> norm_num

end Spine

import Verif.Props.TunerExact
import Verif.Proofs.RelativeError
import Verif.Props.PidAccuracy
/-!
# The gains of the relay tuner in single precision: C81
-/

namespace Spine
open F32 Tuner

namespace TunerFloat

/-- A number that a `float` can hold. -/
def Num (x : Fl) : Prop := x.fin = true ∧ x.Ok

/-- The gains are those of relay tuning up to a millionth. -/
theorem gains_fl {t : Tuner Fl} (h1 : Num t.maxOutput) (h2 : Num t.minOutput) (h3 : Num t.max) (h4 : Num t.min)
    (hd : 1 ≤ (t.maxOutput.val - t.minOutput.val) * 2 ^ 20 ∧ t.maxOutput.val - t.minOutput.val ≤ 2 ^ 20) (ha : 1 ≤ (t.max.val - t.min.val) * 2 ^ 20 ∧ t.max.val - t.min.val ≤ 2 ^ 20)
    (hu : 1 ≤ t.tLow + t.tHigh ∧ t.tLow + t.tHigh ≤ 2 ^ 24) (hl : 1 ≤ t.loopInterval ∧ t.loopInterval ≤ 2 ^ 24) :
    ∃ kp ki kd : Fl, t.gains = .ok (kp, ki, kd) ∧ kp.fin = true ∧ ki.fin = true ∧ kd.fin = true ∧
      let g := relayGains t.mode ((t.maxOutput.val - t.minOutput.val) / 2) ((t.max.val - t.min.val) / 2) ((t.tLow + t.tHigh : Int) : Rat) t.loopInterval
      |kp.val - g.1| ≤ g.1 / 2 ^ 20 ∧ |ki.val - g.2.1| ≤ g.2.1 / 2 ^ 20 ∧ |kd.val - g.2.2| ≤ g.2.2 / 2 ^ 20 := by
  have hs : i64 (t.tLow + t.tHigh) = .ok (t.tLow + t.tHigh) := i64_ok (by constructor <;> omega)
  have c2 : Close 0 1 (Fl.ofRat 2) 2 := by simpa using Close.int (n := 2) (a := 1) (by norm_num) (by norm_num) (by norm_num)
  have c4 : Close 0 2 (Fl.ofRat 4) 4 := by simpa using Close.int (n := 4) (a := 2) (by norm_num) (by norm_num) (by norm_num)
  have cpi : Close 1 2 (Tuner.pi : Fl) (314159265358979323846 / 100000000000000000000) := Close.const (by norm_num) (by norm_num) (by norm_num)
  have ctu := Close.int hu.1 hu.2 (by norm_num)
  have clo := Close.int hl.1 hl.2 (by norm_num)
  have cD := Close.sub h1.1 h2.1 hd.1 hd.2 (by norm_num)
  have cA := Close.sub h3.1 h4.1 ha.1 ha.2 (by norm_num)
  have cku := (c4.mul (cD.div c2 (by norm_num) (by norm_num)) (by norm_num) (by norm_num)).div ((cpi.mul cA (by norm_num) (by norm_num)).div c2 (by norm_num) (by norm_num)) (by norm_num) (by norm_num)
  have key : ∀ (cp ci cd : Fl) (p i d : Rat), Close 1 3 cp p → Close 1 1 ci i → Close 1 3 cd d → ∀ ku : Fl, ∀ k : Rat, Close 8 46 ku k →
      Close 10 49 (Fl.mul cp ku) (p * k) ∧
      Close 14 98 (Fl.mul (Fl.div (Fl.mul cp ku) (Fl.mul ci (Fl.ofRat (t.tLow + t.tHigh : Int)))) (Fl.ofRat t.loopInterval)) (p * k / (i * (t.tLow + t.tHigh : Int)) * t.loopInterval) ∧
      Close 14 100 (Fl.div (Fl.mul (Fl.mul cd (Fl.mul cp ku)) (Fl.ofRat (t.tLow + t.tHigh : Int))) (Fl.ofRat t.loopInterval)) (d * (p * k) * (t.tLow + t.tHigh : Int) / t.loopInterval) := by
    intro cp ci cd p i d hp hi hd' ku k hk
    have ckp := hp.mul hk (by norm_num) (by norm_num)
    exact ⟨ckp, (ckp.div (hi.mul ctu (by norm_num) (by norm_num)) (by norm_num) (by norm_num)).mul clo (by norm_num) (by norm_num),
      ((hd'.mul ckp (by norm_num) (by norm_num)).mul ctu (by norm_num) (by norm_num)).div clo (by norm_num) (by norm_num)⟩
  have q1 : ∀ A D : Rat, 4 * (D / 2) / (314159265358979323846 / 100000000000000000000 * A / 2) = 4 * (D / 2) / (314159265358979323846 / 10 ^ 20 * (A / 2)) := by
    intro A D
    congr 1
    norm_num
    ring
  rw [q1] at cku
  have ctable : Close 1 3 (factors t.mode : Fl × Fl × Fl).1 (znTable t.mode).1 ∧ Close 1 1 (factors t.mode : Fl × Fl × Fl).2.1 (znTable t.mode).2.1 ∧
      Close 1 3 (factors t.mode : Fl × Fl × Fl).2.2 (znTable t.mode).2.2 := by
    cases t.mode <;> simp only [factors, znTable] <;> refine ⟨?_, ?_, ?_⟩ <;>
      first
        | exact Close.const (by norm_num) (by norm_num) (by norm_num)
        | (rw [show (5 : Rat) / 10 = 1 / 2 by norm_num]; exact Close.const (by norm_num) (by norm_num) (by norm_num))
  obtain ⟨k1, k2, k3⟩ := key _ _ _ _ _ _ ctable.1 ctable.2.1 ctable.2.2 _ _ cku
  refine ⟨_, _, _, by simp only [gains, hs, res_bind_ok, res_pure]; rfl, k1.fin, k2.fin, k3.fin, ?_, ?_, ?_⟩
  · exact k1.millionth (by norm_num)
  · exact k2.millionth (by norm_num)
  · have := k3.millionth (by norm_num)
    rw [show ∀ d p T l : Rat, d * p * T / l = p * (d * T) / l by intros; ring] at this
    exact this

theorem pick_max {a x : Fl} (ha : Num a) (hx : Num x) : Num (if Arith.lt x a then a else x) ∧ (if Arith.lt x a then a else x : Fl).val = max a.val x.val := by
  have h := Fl.lt_iff hx.1 ha.1
  by_cases hc : Arith.lt x a = true
  · rw [if_pos hc]; exact ⟨ha, (max_eq_left (h.mp hc).le).symm⟩
  · rw [if_neg hc]; exact ⟨hx, (max_eq_right (not_lt.mp fun h' => hc (h.mpr h'))).symm⟩

theorem pick_min {a x : Fl} (ha : Num a) (hx : Num x) : Num (if Arith.lt a x then a else x) ∧ (if Arith.lt a x then a else x : Fl).val = min a.val x.val := by
  have h := Fl.lt_iff ha.1 hx.1
  by_cases hc : Arith.lt a x = true
  · rw [if_pos hc]; exact ⟨ha, (min_eq_left (h.mp hc).le).symm⟩
  · rw [if_neg hc]; exact ⟨hx, (min_eq_right (not_lt.mp fun h' => hc (h.mpr h'))).symm⟩

/-- Readings that do not switch. -/
theorem play_still_fl (l : List (Fl × Int)) : ∀ t : Tuner Fl, t.finished = false → Num t.max → Num t.min → (∀ r ∈ l, Num r.1) →
    (∀ r ∈ l, if t.on = true then Arith.lt (Arith.add t.target t.hysteresis) r.1 = false else Arith.lt r.1 (Arith.sub t.target t.hysteresis) = false) →
    ∃ M m : Fl, t.play l = .ok { t with max := M, min := m } ∧ Num M ∧ Num m ∧ M.val = (l.map (·.1.val)).foldl max t.max.val ∧ m.val = (l.map (·.1.val)).foldl min t.min.val := by
  induction l with
  | nil => intro t _ h1 h2 _ _; exact ⟨t.max, t.min, rfl, h1, h2, rfl, rfl⟩
  | cons r l ih =>
    intro t hf h1 h2 hn h
    obtain ⟨x, ms⟩ := r
    have h0 := h (x, ms) List.mem_cons_self
    have hx := hn (x, ms) List.mem_cons_self
    obtain ⟨m1, m2⟩ := pick_max h1 hx
    obtain ⟨m3, m4⟩ := pick_min h2 hx
    have e : t.step x ms = .ok (t.extremes x) := by
      refine (step_of (a := t.extremes x) (u := t.extremes x) ?_ ?_).trans (congrArg Except.ok (finish_false hf))
      · unfold switchOff
        rw [if_neg]
        · rfl
        intro hc
        rw [Bool.and_eq_true] at hc
        rw [show t.on = true from hc.1, if_pos rfl] at h0
        exact absurd (hc.2.symm.trans h0) (by simp)
      · unfold switchOn
        rw [if_neg]
        · rfl
        intro hc
        rw [Bool.and_eq_true] at hc
        rw [show t.on = false by simpa [extremes] using hc.1, if_neg (by simp)] at h0
        exact absurd (hc.2.symm.trans h0) (by simp)
    obtain ⟨M, m, j1, j2, j3, j4, j5⟩ := ih (t.extremes x) hf m1 m3 (fun r hr => hn r (List.mem_cons_of_mem _ hr)) (fun r hr => h r (List.mem_cons_of_mem _ hr))
    refine ⟨M, m, ?_, j2, j3, ?_, ?_⟩
    · rw [play, e, res_bind_ok, j1]; rfl
    · rw [j4, List.map_cons, List.foldl_cons]; exact congrArg (fun z => List.foldl max z _) m2
    · rw [j5, List.map_cons, List.foldl_cons]; exact congrArg (fun z => List.foldl min z _) m4

/-- The reading that switches off. -/
theorem step_off_fl {t : Tuner Fl} {x : Fl} {ms : Int} (hf : t.finished = false) (ho : t.on = true) (hb : Tuner.Band t.target t.hysteresis) (hmin : Num t.min) (hn : Num x)
    (hx : Arith.lt (Arith.add t.target t.hysteresis) x = true) (h0 : 0 ≤ t.t2) (h1 : t.t2 ≤ ms) (h2 : ms ≤ 2 ^ 24) :
    ∃ m : Fl, t.step x ms = .ok { t with on := false, outputValue := t.minOutput, t1 := ms, tHigh := ms - t.t2, max := t.target, min := m } ∧ Num m ∧ m.val = min t.min.val x.val := by
  obtain ⟨m3, m4⟩ := pick_min hmin hn
  refine ⟨_, ?_, m3, m4⟩
  refine (step_of (a := { t with on := false, outputValue := t.minOutput, t1 := ms, tHigh := ms - t.t2, max := t.target, min := if Arith.lt t.min x then t.min else x })
    (u := { t with on := false, outputValue := t.minOutput, t1 := ms, tHigh := ms - t.t2, max := t.target, min := if Arith.lt t.min x then t.min else x }) ?_ ?_).trans
    (congrArg Except.ok (finish_false hf))
  · unfold switchOff
    rw [if_pos (by rw [Bool.and_eq_true]; exact ⟨ho, hx⟩)]
    simp only [extremes]
    rw [ms_exact (by omega) (by omega) (by omega) (by omega)]
    rfl
  · unfold switchOn
    rw [if_neg]
    · rfl
    intro hc
    rw [Bool.and_eq_true] at hc
    exact absurd (hc.2.symm.trans (hb x hx)) (by simp)

/-- The reading that switches on and ends the cycle. -/
theorem step_on_fl {t : Tuner Fl} {x : Fl} {ms : Int} (ho : t.on = false) (hx : Arith.lt x (Arith.sub t.target t.hysteresis) = true) (hn : Num x) (hM : Num t.max) (hm : Num t.min)
    (hD1 : Num t.maxOutput) (hD2 : Num t.minOutput) (hd : 1 ≤ (t.maxOutput.val - t.minOutput.val) * 2 ^ 20 ∧ t.maxOutput.val - t.minOutput.val ≤ 2 ^ 20)
    (ha : 1 ≤ (max t.max.val x.val - min t.min.val x.val) * 2 ^ 20 ∧ max t.max.val x.val - min t.min.val x.val ≤ 2 ^ 20)
    (h0 : 0 ≤ t.t1) (h1 : t.t1 ≤ ms) (h2 : ms ≤ 2 ^ 24) (h3 : 0 ≤ t.tHigh) (h4 : 1 ≤ ms - t.t1 + t.tHigh ∧ ms - t.t1 + t.tHigh ≤ 2 ^ 24) (hl : 1 ≤ t.loopInterval ∧ t.loopInterval ≤ 2 ^ 24)
    (h5 : -2 ^ 31 ≤ t.cycle + 1) (h6 : t.cycle + 1 < 2 ^ 31) :
    ∃ u, t.step x ms = .ok (finish u) ∧ u.on = true ∧ u.min = t.target ∧ Num u.max ∧ u.t2 = ms ∧ u.cycle = t.cycle + 1 ∧ u.target = t.target ∧ u.kp.fin = true ∧ u.ki.fin = true ∧ u.kd.fin = true ∧
      let g := relayGains t.mode ((t.maxOutput.val - t.minOutput.val) / 2) ((max t.max.val x.val - min t.min.val x.val) / 2) ((ms - t.t1 + t.tHigh : Int) : Rat) t.loopInterval
      |u.kp.val - g.1| ≤ g.1 / 2 ^ 20 ∧ |u.ki.val - g.2.1| ≤ g.2.1 / 2 ^ 20 ∧ |u.kd.val - g.2.2| ≤ g.2.2 / 2 ^ 20 := by
  have hc : i32 (t.cycle + 1) = .ok (t.cycle + 1) := by rw [i32, if_pos ⟨h5, h6⟩]
  obtain ⟨m1, m2⟩ := pick_max hM hn
  obtain ⟨m3, m4⟩ := pick_min hm hn
  have e1 : (t.extremes x).switchOff x ms = .ok (t.extremes x) := by
    unfold switchOff
    rw [if_neg]
    · rfl
    intro hc
    rw [Bool.and_eq_true, show (t.extremes x).on = true ↔ False by simp [extremes, ho]] at hc
    exact hc.1
  obtain ⟨kp, ki, kd, g1, g2, g3, g4, g5⟩ := gains_fl (t := { t.extremes x with on := true, outputValue := t.maxOutput, t2 := ms, tLow := ms - t.t1 }) hD1 hD2 m1 m3 hd
    (by simp only [extremes]; rw [m2, m4]; exact ha) h4 hl
  have e2 : (t.extremes x).switchOn x ms = .ok { t.extremes x with on := true, outputValue := t.maxOutput, t2 := ms, tLow := ms - t.t1, kp := kp, ki := ki, kd := kd, pAverage := if t.cycle > 1 then Arith.add t.pAverage kp else t.pAverage, iAverage := if t.cycle > 1 then Arith.add t.iAverage ki else t.iAverage, dAverage := if t.cycle > 1 then Arith.add t.dAverage kd else t.dAverage, min := t.target, cycle := t.cycle + 1 } := by
    unfold switchOn
    rw [if_pos (by rw [Bool.and_eq_true]; exact ⟨by simp [extremes, ho], hx⟩)]
    simp only [extremes] at g1 ⊢
    rw [ms_exact (a := ms) (b := t.t1) (by omega) (by omega) (by omega) (by omega), res_bind_ok, g1, res_bind_ok]
    simp only [hc, res_bind_ok, res_pure]
    rfl
  refine ⟨_, step_of e1 e2, rfl, rfl, m1, rfl, rfl, rfl, g2, g3, g4, ?_⟩
  simp only [extremes] at g5
  rw [m2, m4] at g5
  exact g5

/-- A tuner at the beginning of a cycle. -/
def Ready (t : Tuner Fl) : Prop := t.on = true ∧ t.target.val ≤ t.min.val ∧ Num t.max ∧ Num t.min ∧ 0 ≤ t.t2 ∧ t.finished = false

end TunerFloat

open TunerFloat

/-- **C81 in single precision.** In a cycle, the input stays below the upper limit of the band (`xs`), rises above it (`x1`, at `m1`), stays above its lower limit (`ys`) and falls below it (`y1`,
at `m2`). Then the gains are those of relay tuning, up to a millionth of each, with the period from the end of the cycle before, and half of the difference of the lowest reading of the cycle and of
`seen`, the highest of the set point and the readings after the one that switched the output off (which `C81_exact` is about). The next cycle begins. The output range and the difference are between
2^-20 and 2^20, the uptime and the interval of the loop up to 2^24 ms. -/
theorem C81_single {t : Tuner Fl} (ht : Ready t) (hT : Num t.target ∧ |t.target.val| ≤ 2 ^ 100) (hh : Num t.hysteresis ∧ Fl.fabs t.hysteresis = t.hysteresis ∧ t.hysteresis.val ≤ 2 ^ 100)
    {xs ys : List (Fl × Int)} {x1 y1 : Fl} {m1 m2 : Int} (hn : ∀ r ∈ xs ++ [(x1, m1)] ++ ys ++ [(y1, m2)], Num r.1)
    (hxs : ∀ r ∈ xs, Fl.lt (Fl.add t.target t.hysteresis) r.1 = false) (hx1 : Fl.lt (Fl.add t.target t.hysteresis) x1 = true)
    (hys : ∀ r ∈ ys, Fl.lt r.1 (Fl.sub t.target t.hysteresis) = false) (hy1 : Fl.lt y1 (Fl.sub t.target t.hysteresis) = true)
    (hm : t.t2 ≤ m1) (hm' : m1 ≤ m2) (hm1 : t.t2 < m2) (hm2 : m2 ≤ 2 ^ 24) (hcyc : -2 ^ 31 ≤ t.cycle ∧ t.cycle + 1 < 2 ^ 31) (hl : 1 ≤ t.loopInterval ∧ t.loopInterval ≤ 2 ^ 24)
    (hD : Num t.maxOutput ∧ Num t.minOutput) (hd : 1 ≤ (t.maxOutput.val - t.minOutput.val) * 2 ^ 20 ∧ t.maxOutput.val - t.minOutput.val ≤ 2 ^ 20)
    {lo seen : Rat} (hlo : lo ∈ (xs ++ [(x1, m1)] ++ ys ++ [(y1, m2)]).map (·.1.val) ∧ ∀ r ∈ xs ++ [(x1, m1)] ++ ys ++ [(y1, m2)], lo ≤ r.1.val)
    (hseen : seen ∈ t.target.val :: ys.map (·.1.val) ∧ ∀ x ∈ t.target.val :: ys.map (·.1.val), x ≤ seen) (ha : 1 ≤ (seen - lo) * 2 ^ 20 ∧ seen - lo ≤ 2 ^ 20) :
    ∃ u : Tuner Fl, t.play (xs ++ [(x1, m1)] ++ ys ++ [(y1, m2)]) = .ok u ∧ u.cycle = t.cycle + 1 ∧ u.t2 = m2 ∧
      (u.finished = false → Ready u ∧ u.kp.fin = true ∧ u.ki.fin = true ∧ u.kd.fin = true ∧
        let g := relayGains t.mode ((t.maxOutput.val - t.minOutput.val) / 2) ((seen - lo) / 2) ((m2 - t.t2 : Int) : Rat) t.loopInterval
        |u.kp.val - g.1| ≤ g.1 / 2 ^ 20 ∧ |u.ki.val - g.2.1| ≤ g.2.1 / 2 ^ 20 ∧ |u.kd.val - g.2.2| ≤ g.2.2 / 2 ^ 20) := by
  obtain ⟨t1, t2, t3, t4, t5, t6⟩ := ht
  have hb : Tuner.Band t.target t.hysteresis := hh.2.1 ▸ band_ieee (target := t.target) hh.1.2
  have hy1n : Num y1 := hn (y1, m2) (by simp)
  have hy1t : y1.val ≤ t.target.val := by
    have hh0 : 0 ≤ t.hysteresis.val := by
      rw [← hh.2.1]
      cases he : t.hysteresis with
      | nan => simp [Fl.fabs, Fl.val]
      | inf s => simp [Fl.fabs, Fl.val]
      | num s m => have := hh.1.2; rw [he] at this; simpa [Fl.fabs, Fl.val] using this.1
    have hsz : |rnd (t.target.val - t.hysteresis.val)| < pow2 128 := by
      have e : pow2 102 = 2 ^ 102 := by rw [pow2_eq]; norm_num
      refine (PidAccuracy.rnd_bound (k := 102) (by norm_num) ?_).trans_lt (pow2_lt (by norm_num))
      rw [e]
      obtain ⟨a1, a2⟩ := abs_le.mp hT.2
      have := hh.2.2
      rw [abs_le]
      norm_num at *
      constructor <;> linarith
    have v := Fl.sub_val hT.1.1 hh.1.1 hsz
    have h := (Fl.lt_iff hy1n.1 v.1).mp hy1
    rw [v.2] at h
    have := rnd_mono (p := t.target.val - t.hysteresis.val) (q := t.target.val) (by linarith)
    rw [hT.1.2.rnd_val] at this
    linarith
  obtain ⟨M1, n1, e1, a1, a2, a3, a4⟩ := play_still_fl xs t t6 t3 t4 (fun r hr => hn r (by simp [hr])) (by intro r hr; rw [if_pos t1]; exact hxs r hr)
  obtain ⟨n2, e2, b1, b2⟩ := step_off_fl (t := { t with max := M1, min := n1 }) (x := x1) (ms := m1) t6 t1 hb a2 (hn (x1, m1) (by simp)) hx1 t5 hm (by omega)
  obtain ⟨M3, n3, e3, c1, c2, c3, c4⟩ := play_still_fl ys { t with on := false, outputValue := t.minOutput, t1 := m1, tHigh := m1 - t.t2, max := t.target, min := n2 }
    t6 hT.1 b1 (fun r hr => hn r (by simp [hr])) (by intro r hr; rw [if_neg (by simp)]; exact hys r hr)
  have hy1lo : lo ≤ y1.val := hlo.2 (y1, m2) (by simp)
  have ex : max M3.val y1.val = seen := by
    rw [c3]
    obtain ⟨g1, g2⟩ := foldl_max_spec (ys.map (·.1.val)) t.target.val
    have hts : t.target.val ≤ seen := hseen.2 _ List.mem_cons_self
    rw [le_antisymm (hseen.2 _ g1) (g2 _ hseen.1), max_eq_left]
    linarith
  have en : min n3.val y1.val = lo := by
    rw [c4, b2]
    simp only
    rw [a4]
    have : min ((ys.map (·.1.val)).foldl min (min ((xs.map (·.1.val)).foldl min t.min.val) x1.val)) y1.val = ((xs ++ [(x1, m1)] ++ ys ++ [(y1, m2)]).map (·.1.val)).foldl min t.min.val := by
      simp [List.foldl_append]
    rw [this]
    refine foldl_min_le (by linarith) ?_ (Or.inl hlo.1)
    intro x hx
    obtain ⟨r, hr, rfl⟩ := List.mem_map.mp hx
    exact hlo.2 r hr
  obtain ⟨u, f1, f2, f3, f4, f5, f6, f7, f8, f9, f10, f11⟩ := step_on_fl (t := { t with on := false, outputValue := t.minOutput, t1 := m1, tHigh := m1 - t.t2, max := M3, min := n3 })
    (x := y1) (ms := m2) rfl hy1 hy1n c1 c2 hD.1 hD.2 hd (by simp only; rw [ex, en]; exact ha) (by simp only; omega) hm' hm2 (by simp only; omega) (by simp only; omega) hl (by simp only; omega) hcyc.2
  refine ⟨finish u, ?_, ?_, ?_, ?_⟩
  · rw [play_append, play_append, play_append, e1, res_bind_ok]
    simp only [play]
    rw [e2, res_bind_ok, res_bind_ok, e3, res_bind_ok, f1]
    rfl
  · rw [(finish_cycle u).1, f6]
  · unfold finish; split <;> exact f5
  · intro hfin
    have hu : u.finished = false := (finish_cycle u).2.2.1 ▸ hfin
    rw [finish_false hu]
    simp only at f11
    rw [ex, en, show m2 - m1 + (m1 - t.t2) = m2 - t.t2 by omega] at f11
    exact ⟨⟨f2, by rw [f3, f7], f4, by rw [f3]; exact hT.1, by rw [f5]; omega, hu⟩, f8, f9, f10, f11⟩

/-- A tuner that has just been started is at the beginning of a cycle. -/
theorem C81_single_start {target hyst lo hi : Fl} {loop now cycles : Int} {mode : ZnMode} (h1 : 1 ≤ cycles) (h2 : target.val ≤ 2 ^ 39) (h3 : 0 ≤ now) :
    Ready (Tuner.start target hyst loop lo hi mode cycles now) ∧ (Tuner.start target hyst loop lo hi mode cycles now).t2 = now := by
  have e : (2 : Rat) ^ 39 ≤ (Fl.ofRat 1000000000000).val := by decide +kernel
  have e1 : (Fl.ofRat (-1000000000000)).fin = true := by decide +kernel
  have e2 : (Fl.ofRat 1000000000000).fin = true := by decide +kernel
  refine ⟨⟨rfl, h2.trans e, ⟨e1, Fl.ofRat_ok _⟩, ⟨e2, Fl.ofRat_ok _⟩, h3, ?_⟩, rfl⟩
  simp [Tuner.start, finished]; omega

/-- Non-trivial case: the oscillation between 40 and 60 with a period of 400 ms of `C81_gains_partial`, with a hysteresis that is no float. -/
example : ∃ u : Tuner Fl, (Tuner.start (Fl.ofRat 50) (Fl.ofRat (1 / 10)) 100 (Fl.ofRat 0) (Fl.ofRat 255) .basic 3 1000).play
      ([(Fl.ofRat 45, 1000)] ++ [(Fl.ofRat 55, 1100)] ++ [(Fl.ofRat 60, 1200), (Fl.ofRat 50, 1300)] ++ [(Fl.ofRat 40, 1400)]) = .ok u ∧
    let g := relayGains .basic (255 / 2) 10 400 100
    |u.kp.val - g.1| ≤ g.1 / 2 ^ 20 ∧ |u.ki.val - g.2.1| ≤ g.2.1 / 2 ^ 20 ∧ |u.kd.val - g.2.2| ≤ g.2.2 / 2 ^ 20 := by
  have hv : ∀ n : Int, |n| ≤ 2 ^ 10 → Num (Fl.ofRat n) ∧ (Fl.ofRat n).val = n := by
    intro n h
    have hr : rnd (n : Rat) = n := rnd_int (h.trans (by norm_num))
    have h' : |(n : Rat)| ≤ 2 ^ 10 := by exact_mod_cast h
    have v := Fl.ofRat_val (q := n) (by rw [hr, pow2_eq]; exact h'.trans_lt (by norm_num))
    exact ⟨⟨v.1, Fl.ofRat_ok _⟩, v.2.trans hr⟩
  have v0 := hv 0 (by norm_num)
  have v40 := hv 40 (by norm_num)
  have v45 := hv 45 (by norm_num)
  have v50 := hv 50 (by norm_num)
  have v55 := hv 55 (by norm_num)
  have v60 := hv 60 (by norm_num)
  have v255 := hv 255 (by norm_num)
  simp only [Int.cast_zero, Int.cast_ofNat] at v0 v40 v45 v50 v55 v60 v255
  obtain ⟨u, h1, -, -, h2⟩ := C81_single (t := Tuner.start (Fl.ofRat 50) (Fl.ofRat (1 / 10)) 100 (Fl.ofRat 0) (Fl.ofRat 255) .basic 3 1000) (xs := [(Fl.ofRat 45, 1000)])
    (ys := [(Fl.ofRat 60, 1200), (Fl.ofRat 50, 1300)]) (x1 := Fl.ofRat 55) (y1 := Fl.ofRat 40) (m1 := 1100) (m2 := 1400) (lo := 40) (seen := 60)
    (C81_single_start (by norm_num) (by rw [v50.2]; norm_num) (by norm_num)).1 ⟨v50.1, by simp only [Tuner.start]; rw [v50.2]; norm_num⟩ ⟨⟨by decide +kernel, Fl.ofRat_ok _⟩, by decide +kernel, by decide +kernel⟩
    (by simp [v40.1, v45.1, v50.1, v55.1, v60.1]) (by decide +kernel) (by decide +kernel) (by decide +kernel) (by decide +kernel) (by decide) (by decide) (by decide) (by decide) (by decide) (by decide)
    ⟨v255.1, v0.1⟩ (by simp only [Tuner.start]; rw [v255.2, v0.2]; norm_num) (by simp [v40.2, v45.2, v50.2, v55.2, v60.2]; norm_num) (by simp [Tuner.start, v50.2, v60.2]; norm_num) (by norm_num)
  have hu : u.finished = false := by
    have h3 : ((Tuner.start (Fl.ofRat 50) (Fl.ofRat (1 / 10)) 100 (Fl.ofRat 0) (Fl.ofRat 255) .basic 3 1000).play
      ([(Fl.ofRat 45, 1000)] ++ [(Fl.ofRat 55, 1100)] ++ [(Fl.ofRat 60, 1200), (Fl.ofRat 50, 1300)] ++ [(Fl.ofRat 40, 1400)])).map (·.finished) = .ok false := by decide +kernel
    rw [h1] at h3
    exact Except.ok.inj h3
  obtain ⟨-, -, -, -, h4⟩ := h2 hu
  refine ⟨u, h1, ?_⟩
  simp only [Tuner.start, v255.2, v0.2] at h4
  norm_num at h4 ⊢
  exact h4

end Spine

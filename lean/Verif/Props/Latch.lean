import Verif.Proofs.Latch
/-!
# `SRLatch`: C41 to C43

Times are compared through binary32 (`k_time_ms` of `k_time_ms`), so above 2^24 ms (4.7 h) of uptime each bound carries the
rounding error of the times involved: `|t| / 2 ^ 24`, which is 0 below 2^24.  Thresholds and readings are of any type with a
comparison, NaN included.
-/

namespace Spine
open Latch

variable {F : Type} [Arith F] {cfg : LatchConfig F}

/-- The minimal time of a state. -/
def LatchConfig.minTime (cfg : LatchConfig F) (on : Bool) : Int := if on then cfg.minOn else cfg.minOff

/-- C41: over any readings in order of time, changes are at least the minimal time of the state in between apart, up to the
rounding of the times involved.  Missing: exactness above 2^24 ms. -/
theorem C41_minimal_partial (hs : Sane cfg (2 ^ 60)) (h0 : 0 ≤ cfg.minOff) {t0 t1 : Int} (hb0 : |t0| ≤ 2 ^ 60) (hb1 : |t1| ≤ 2 ^ 60)
    {rs : List (Int × F)} (hrs : Times t0 rs t1) :
    ∃ os, responses cfg t0 rs = .ok os ∧ os.length = rs.length ∧
      (switches false ((rs.map Prod.fst).zip os)).IsChain (fun a c =>
        cfg.minTime a.2 - |cfg.minTime a.2| / 2 ^ 24 - |a.1| / 2 ^ 24 ≤ c.1 - a.1) := by
  have hs' : Sane cfg (2 ^ 62) := ⟨hs.1.trans (by norm_num), hs.2.trans (by norm_num), hs.3.trans (by norm_num), hs.4.trans (by norm_num)⟩
  obtain ⟨l0, hc, hoff, hl0, hl0', hl0b⟩ := create_ok hs h0 hb0
  have hT : Times l0.turned.last rs t1 := ⟨hrs.1, fun r hr => ⟨hl0'.trans (hrs.2 r hr).1, (hrs.2 r hr).2⟩⟩
  obtain ⟨os, l, hr, hlen, -, -⟩ := run_ok hs' rs l0 t1 hl0b (hb1.trans (by norm_num)) hT
  refine ⟨os, by simp only [responses, hc, hr, res_bind_ok, res_pure], hlen, ?_⟩
  have h := run_chain hs' rs l0 t1 _ hl0b (hb1.trans (by norm_num)) hT le_rfl os l hr
  rw [hoff] at h
  refine h.tail.imp fun a c hac => ?_
  change near (cfg.minTime a.2) ≤ _ at hac
  have e1 := near_bound a.1
  have e2 := near_bound (cfg.minTime a.2)
  rw [abs_le] at e1 e2
  omega

/-- A fan with at least 20 ms on and 10 ms off. -/
def fan : LatchConfig Rat := { high := 30, low := 20, minOn := 20, minOff := 10 }

example : responses fan 100 [(100, 31), (105, 10), (121, 19), (125, 40), (131, 40)] = .ok [true, true, false, false, true] ∧
    switches false [(100, true), (105, true), (121, false), (125, false), (131, true)] = [(100, true), (121, false), (131, true)] := by decide +kernel

/-- C41 above 2^24 ms: with 2 ms of minimal on time the latch switches off after 1 ms. -/
theorem C41_rounding_counterexample :
    responses { high := 30, low := 20, minOn := 2 : LatchConfig Rat } 16777000 [(16777217, 31), (16777218, 10)] = .ok [true, false] := by
  decide +kernel

/-- C42: a latch that has been on since `t1` and has seen no reading above `high` since then goes off at the first reading more than
`maximal_on_time` after `t1` (up to rounding).  Missing: readings above `high`, which restart the timer. -/
theorem C42_maximal_partial (hs : Sane cfg (2 ^ 60)) (h0 : 0 ≤ cfg.minOff) (hmin : cfg.minOn ≤ cfg.maxOn) (hmax : cfg.maxOn ≠ 0)
    {t0 t1 t : Int} (hb0 : |t0| ≤ 2 ^ 60) (hbt : |t| ≤ 2 ^ 60) {pre mid : List (Int × F)} {v : F} (ht0 : t0 ≤ t1)
    (hpre : Times t0 pre t1) (hmid : Times t1 (mid ++ [(t, v)]) t)
    (h1 : response cfg t0 pre = .ok true) {os : List Bool} (h2 : responses cfg t0 (pre ++ mid) = .ok os)
    (h3 : ∀ o ∈ os.drop pre.length, o = true) (h4 : ∀ r ∈ mid, Arith.lt cfg.high r.2 = false)
    (hlong : cfg.maxOn + |cfg.maxOn| / 2 ^ 24 + |t1| / 2 ^ 24 < t - t1) :
    response cfg t0 (pre ++ mid ++ [(t, v)]) = .ok false := by
  obtain ⟨l, hl, hl1, -, -, h⟩ := held hs h0 hb0 hbt ht0 hpre hmid h1 h2 h3 (by simpa using h4)
  rw [h]
  have e1 := near_bound t1
  have e2 := near_bound cfg.maxOn
  have e3 := near_mono hl1
  have e4 := near_mono hmin
  rw [abs_le] at e1 e2
  have a1 : ¬ t - near l.turned.last < near cfg.minOn := by omega
  have a2 : near cfg.maxOn < t - near l.turned.last := by omega
  simp [next, hl, a1, a2, hmax, Latch.set]

/-- The same for `maximal_off_time` and readings below `low`. -/
theorem C42_off_partial (hs : Sane cfg (2 ^ 60)) (h0 : 0 ≤ cfg.minOff) (hmin : cfg.minOff ≤ cfg.maxOff) (hmax : cfg.maxOff ≠ 0)
    {t0 t1 t : Int} (hb0 : |t0| ≤ 2 ^ 60) (hbt : |t| ≤ 2 ^ 60) {pre mid : List (Int × F)} {v : F} (ht0 : t0 ≤ t1)
    (hpre : Times t0 pre t1) (hmid : Times t1 (mid ++ [(t, v)]) t)
    (h1 : response cfg t0 pre = .ok false) {os : List Bool} (h2 : responses cfg t0 (pre ++ mid) = .ok os)
    (h3 : ∀ o ∈ os.drop pre.length, o = false) (h4 : ∀ r ∈ mid, Arith.lt r.2 cfg.low = false)
    (hlong : cfg.maxOff + |cfg.maxOff| / 2 ^ 24 + |t1| / 2 ^ 24 < t - t1) :
    response cfg t0 (pre ++ mid ++ [(t, v)]) = .ok true := by
  obtain ⟨l, hl, hl1, -, -, h⟩ := held hs h0 hb0 hbt ht0 hpre hmid h1 h2 h3 (by simpa using h4)
  rw [h]
  have e1 := near_bound t1
  have e2 := near_bound cfg.maxOff
  have e3 := near_mono hl1
  have e4 := near_mono hmin
  rw [abs_le] at e1 e2
  have a1 : ¬ t - near l.turned.last < near cfg.minOff := by omega
  have a2 : near cfg.maxOff < t - near l.turned.last := by omega
  simp [next, hl, a1, a2, hmax, Latch.set]

/-- A pump that may run 25 ms. -/
def pump : LatchConfig Rat := { high := 30, low := 20, maxOn := 25 }

example : response pump 0 ([(5, 31)] ++ [(10, 25), (20, 25)]) = .ok true ∧
    response pump 0 ([(5, 31)] ++ [(10, 25), (20, 25)] ++ [(31, 100)]) = .ok false := by decide +kernel

/-- C42 is false: a latch with a maximal on time of 25 ms that sees a high reading every 10 ms stays on for ever (here for any
number `n` of readings). -/
theorem C42_forever_counterexample (n : Nat) (hn : 10 * (n : Int) ≤ 2 ^ 24) :
    response pump 0 ((List.range (n + 1)).map fun k : Nat => (10 * (k : Int), 31)) = .ok true := by
  have hsane : Sane pump (2 ^ 60) := ⟨by decide, by decide, by decide, by decide⟩
  have key : ∀ m : Nat, 10 * (m : Int) ≤ 2 ^ 24 → ∃ os, run pump ⟨false, Timer.create 0⟩ ((List.range (m + 1)).map fun k : Nat => (10 * (k : Int), 31)) =
      .ok (os, ⟨true, Timer.create (10 * m)⟩) := by
    intro m
    induction m with
    | zero => intro _; exact ⟨[true], by decide +kernel⟩
    | succ m ih =>
      intro hm
      obtain ⟨os, h⟩ := ih (by push_cast at hm; omega)
      refine ⟨os ++ [true], ?_⟩
      rw [List.range_succ, List.map_append, run_append, h, res_bind_ok]
      have hq := newReading_eq (cfg := pump) (l := ⟨true, Timer.create (10 * (m : Int))⟩) (now := 10 * ((m + 1 : Nat) : Int)) (v := 31)
        ⟨by decide, by decide, by decide, by decide⟩ (by simp only [Timer.create]; rw [abs_le]; push_cast at hm; omega) (by rw [abs_le]; push_cast at hm ⊢; omega)
      have hn0 : near (10 * (m : Int)) = 10 * m := near_eq (by rw [abs_le]; push_cast at hm; omega)
      have e0 : near pump.minOn = 0 := by decide +kernel
      have e25 : near pump.maxOn = 25 := by decide +kernel
      simp only [List.map_cons, List.map_nil, run, hq, res_bind_ok, res_pure]
      simp only [next, if_true, Timer.create, hn0, e0, e25, Nat.cast_succ]
      rw [if_neg (by omega), if_neg (by omega), if_pos (by decide +kernel)]
      rfl
  obtain ⟨os, h⟩ := key n hn
  simp only [response, show create pump 0 = .ok ⟨false, Timer.create 0⟩ by decide +kernel, res_bind_ok, h, res_pure]

/-- C43, within the band (or NaN): with no maximal time set for its state, the latch keeps its state. -/
theorem C43_band (hs : Sane cfg (2 ^ 60)) (h0 : 0 ≤ cfg.minOff) {t0 t : Int} (hb0 : |t0| ≤ 2 ^ 60) (hbt : |t| ≤ 2 ^ 60)
    {rs : List (Int × F)} {v : F} (ht : Times t0 (rs ++ [(t, v)]) t) (h1 : Arith.lt cfg.high v = false) (h2 : Arith.lt v cfg.low = false)
    {b : Bool} (hb : response cfg t0 rs = .ok b) (hmax : (if b then cfg.maxOn else cfg.maxOff) = 0) :
    response cfg t0 (rs ++ [(t, v)]) = .ok b := by
  obtain ⟨l, hl, -, -, h⟩ := reached hs h0 hb0 hbt ht
  rw [h]
  have e : l.on = b := by rw [hl] at hb; simpa using hb
  subst e
  simp [next, h1, h2, hmax]

/-- C43, within the band: with a maximal time Latch.set, the latch keeps its state at least that long (up to rounding) after it switched. -/
theorem C43_band_within_partial (hs : Sane cfg (2 ^ 60)) (h0 : 0 ≤ cfg.minOff) {t0 s t : Int} (hb0 : |t0| ≤ 2 ^ 60) (hbt : |t| ≤ 2 ^ 60)
    {pre mid : List (Int × F)} {w v : F} (ht : Times t0 (pre ++ [(s, w)] ++ mid ++ [(t, v)]) t)
    (h1 : Arith.lt cfg.high v = false) (h2 : Arith.lt v cfg.low = false) {b : Bool}
    (hb1 : response cfg t0 pre = .ok (!b)) (hb2 : response cfg t0 (pre ++ [(s, w)]) = .ok b)
    (hb : response cfg t0 (pre ++ [(s, w)] ++ mid) = .ok b)
    (hmax : t - s + |s| / 2 ^ 24 ≤ if b then cfg.maxOn - |cfg.maxOn| / 2 ^ 24 else cfg.maxOff - |cfg.maxOff| / 2 ^ 24) :
    response cfg t0 (pre ++ [(s, w)] ++ mid ++ [(t, v)]) = .ok b := by
  obtain ⟨l, hl, hls, -, h⟩ := reached_since hs h0 hb0 hbt ht hb1 hb2
  rw [h]
  have e : l.on = b := by rw [hl] at hb; simpa using hb
  subst e
  have e1 := near_bound s
  have e2 := near_bound cfg.maxOn
  have e3 := near_bound cfg.maxOff
  have e4 := near_mono hls
  rw [abs_le] at e1 e2 e3
  have a : ¬ near (if l.on then cfg.maxOn else cfg.maxOff) < t - near l.turned.last := by
    cases hl : l.on <;> simp only [hl, if_true, if_false, Bool.false_eq_true] at hmax ⊢ <;> omega
  simp [next, h1, h2, a]

example : response pump 0 ([] ++ [(5, 31)]) = .ok true ∧ response pump 0 ([] ++ [(5, 31)] ++ [(10, 25)] ++ [(30, 25)]) = .ok true ∧
    response pump 0 ([] ++ [(5, 31)] ++ [(10, 25)] ++ [(31, 25)]) = .ok false := by decide +kernel

/-- C43, above `high`: a latch that has been off since `t1`, has seen no reading below `low` since, and for which
`minimal_off_time` has passed since `t1` (up to rounding), goes on.  Missing: readings below `low`, which restart the timer. -/
theorem C43_rise_partial (hs : Sane cfg (2 ^ 60)) (h0 : 0 ≤ cfg.minOff) {t0 t1 t : Int} (hb0 : |t0| ≤ 2 ^ 60) (hbt : |t| ≤ 2 ^ 60)
    {pre mid : List (Int × F)} {v : F} (ht0 : t0 ≤ t1) (hpre : Times t0 pre t1) (hmid : Times t1 (mid ++ [(t, v)]) t)
    (h1 : response cfg t0 pre = .ok false) {os : List Bool} (h2 : responses cfg t0 (pre ++ mid) = .ok os)
    (h3 : ∀ o ∈ os.drop pre.length, o = false) (h4 : ∀ r ∈ mid, Arith.lt r.2 cfg.low = false)
    (hlong : cfg.minOff + |cfg.minOff| / 2 ^ 24 + |t1| / 2 ^ 24 ≤ t - t1) (hv : Arith.lt cfg.high v = true) :
    response cfg t0 (pre ++ mid ++ [(t, v)]) = .ok true := by
  obtain ⟨l, hl, hl1, -, -, h⟩ := held hs h0 hb0 hbt ht0 hpre hmid h1 h2 h3 (by simpa using h4)
  rw [h]
  have e1 := near_bound t1
  have e2 := near_bound cfg.minOff
  have e3 := near_mono hl1
  rw [abs_le] at e1 e2
  have a1 : ¬ t - near l.turned.last < near cfg.minOff := by omega
  simp only [next, hl, a1, hv, Latch.set, Bool.false_eq_true, if_true, if_false]
  split_ifs <;> rfl

/-- C43: the first reading above `high` turns a new latch on at once, as the constructor puts the timer back by
`minimal_off_time`. -/
theorem C43_first_partial (hs : Sane cfg (2 ^ 24)) (h0 : 0 ≤ cfg.minOff) {t0 t : Int} (hb0 : |t0| ≤ 2 ^ 24) (hbt : |t| ≤ 2 ^ 60) (hlo : |t0 - cfg.minOff| ≤ 2 ^ 24)
    {v : F} (ht : t0 ≤ t) (hv : Arith.lt cfg.high v = true) : response cfg t0 [(t, v)] = .ok true := by
  have hs' : Sane cfg (2 ^ 60) := ⟨hs.1.trans (by norm_num), hs.2.trans (by norm_num), hs.3.trans (by norm_num), hs.4.trans (by norm_num)⟩
  have hr0 : response cfg t0 ([] : List (Int × F)) = .ok false := by
    obtain ⟨l0, hc, hoff, -⟩ := create_ok hs' h0 (hb0.trans (by norm_num))
    simp only [response, hc, run, res_bind_ok, res_pure, hoff]
  have hr1 : responses cfg t0 ([] ++ [] : List (Int × F)) = .ok [] := by
    obtain ⟨l0, hc, hoff, -⟩ := create_ok hs' h0 (hb0.trans (by norm_num))
    simp only [responses, hc, run, res_bind_ok, res_pure, List.append_nil]
  obtain ⟨l, hl, hl1, -, hl2, h⟩ := held (cfg := cfg) (pre := []) (mid := []) (t1 := t0) (t := t) (v := v) hs' h0 (hb0.trans (by norm_num)) hbt le_rfl
    (by simp [Times]) (by simp [Times, ht]) hr0 hr1 (by simp) (by simp)
  simp only [List.nil_append] at h
  rw [h]
  have e1 := near_eq hs.minOff
  have e2 := hl2 rfl
  rw [e1] at e2
  have e3 := near_eq (v := l.turned.last) (by rw [e2]; exact hlo)
  have a1 : ¬ t - near l.turned.last < near cfg.minOff := by omega
  simp only [next, hl, a1, hv, Latch.set, Bool.false_eq_true, if_true, if_false]
  split_ifs <;> rfl

/-- C43, below `low`: a latch that has been on since `t1`, has seen no reading above `high` since, and for which `minimal_on_time`
has passed since `t1` (up to rounding), goes off. -/
theorem C43_fall_partial (hs : Sane cfg (2 ^ 60)) (h0 : 0 ≤ cfg.minOff) {t0 t1 t : Int} (hb0 : |t0| ≤ 2 ^ 60) (hbt : |t| ≤ 2 ^ 60)
    {pre mid : List (Int × F)} {v : F} (ht0 : t0 ≤ t1) (hpre : Times t0 pre t1) (hmid : Times t1 (mid ++ [(t, v)]) t)
    (h1 : response cfg t0 pre = .ok true) {os : List Bool} (h2 : responses cfg t0 (pre ++ mid) = .ok os)
    (h3 : ∀ o ∈ os.drop pre.length, o = true) (h4 : ∀ r ∈ mid, Arith.lt cfg.high r.2 = false)
    (hlong : cfg.minOn + |cfg.minOn| / 2 ^ 24 + |t1| / 2 ^ 24 ≤ t - t1) (hv : Arith.lt v cfg.low = true) (hv' : Arith.lt cfg.high v = false) :
    response cfg t0 (pre ++ mid ++ [(t, v)]) = .ok false := by
  obtain ⟨l, hl, hl1, -, -, h⟩ := held hs h0 hb0 hbt ht0 hpre hmid h1 h2 h3 (by simpa using h4)
  rw [h]
  have e1 := near_bound t1
  have e2 := near_bound cfg.minOn
  have e3 := near_mono hl1
  rw [abs_le] at e1 e2
  have a1 : ¬ t - near l.turned.last < near cfg.minOn := by omega
  simp only [next, hl, a1, hv, hv', Latch.set, Bool.false_eq_true, if_true, if_false]
  split_ifs <;> simp

/-- C43: a latch already on stays on above `high`, one that is off stays off below `low`, with no maximal time set for its state. -/
theorem C43_stays (hs : Sane cfg (2 ^ 60)) (h0 : 0 ≤ cfg.minOff) {t0 t : Int} (hb0 : |t0| ≤ 2 ^ 60) (hbt : |t| ≤ 2 ^ 60)
    {rs : List (Int × F)} {v : F} (ht : Times t0 (rs ++ [(t, v)]) t) {b : Bool} (hb : response cfg t0 rs = .ok b)
    (hv : (if b then Arith.lt cfg.high v else Arith.lt v cfg.low && !Arith.lt cfg.high v) = true) (hmax : (if b then cfg.maxOn else cfg.maxOff) = 0) :
    response cfg t0 (rs ++ [(t, v)]) = .ok b := by
  obtain ⟨l, hl, -, -, h⟩ := reached hs h0 hb0 hbt ht
  rw [h]
  have e : l.on = b := by rw [hl] at hb; simpa using hb
  subst e
  cases hon : l.on <;> simp_all [next, Latch.set] <;> split_ifs <;> simp_all

example : response fan 0 [(0, 31)] = .ok true ∧ response fan 0 ([(0, 31)] ++ [(10, 25)] ++ [(20, 19)]) = .ok false ∧
    response fan 0 ([(0, 31), (20, 19)] ++ [(25, 25)] ++ [(30, 31)]) = .ok true := by decide +kernel

/-- C43 is false with readings below `low`: off since time 20, the latch ignores the high readings at 108 and 118, although its
minimal off time is 10 ms. -/
theorem C43_low_counterexample :
    responses fan 0 [(0, 31), (20, 19), (100, 19), (108, 31), (110, 19), (118, 31)] = .ok [true, false, false, false, false, false] := by decide +kernel

end Spine

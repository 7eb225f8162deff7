import Verif.Model.AnalogueChain
import Verif.Props.Gpio
/-!
# Property C169: what an analogue input reads is a fraction of its range
-/

namespace Spine

open F32

/-- The integer part of a number: rounding towards zero. -/
def integerPart (q : Rat) : Int := if 0 ≤ q then ⌊q⌋ else -⌊-q⌋

theorem exact1024 {m : Int} (hm : |m| ≤ 2 ^ 24) (k : Nat) : rnd ((m : Rat) / 1024 * 2 ^ k) = m / 1024 * 2 ^ k := by
  have := rnd_exact (m := m) (e := -10 + k) hm (by omega)
  have e : pow2 (-10 + k) = 1 / 1024 * 2 ^ k := by rw [pow2_add, pow2_nat, pow2_eq]; norm_num
  rw [e] at this
  rw [show (m : Rat) / 1024 * 2 ^ k = m * (1 / 1024 * 2 ^ k) by ring]
  exact this

theorem small128 {q : Rat} (h : |q| ≤ 2 ^ 40) : |q| < pow2 128 := by
  rw [pow2_eq]
  exact h.trans_lt (by norm_num)

/-- C169: `read` is exactly the number of the converter divided by 1024, for converters of up to 24 bits. -/
theorem C169_read {n : Int} (h0 : 0 ≤ n) (h1 : n ≤ 2 ^ 24) : (analogueRead n).fin = true ∧ (analogueRead n).val = n / 1024 := by
  have e := exact1024 (m := n) (by rw [abs_of_nonneg h0]; exact h1) 0
  rw [pow_zero, mul_one] at e
  have hb : |(n : Rat) / 1024| ≤ 2 ^ 40 := by
    have : (n : Rat) ≤ 2 ^ 24 := by exact_mod_cast h1
    have : (0 : Rat) ≤ n := by exact_mod_cast h0
    rw [abs_of_nonneg (by positivity)]
    linarith
  have := Fl.ofRat_val (q := (n : Rat) / 1024) (by rw [e]; exact small128 hb)
  rw [e] at this
  exact this

theorem pinNumber_high {v : Fl} (hf : v.fin = true) (ho : v.Ok) {k : Nat} (hk : k ≤ 30) (hb : |v.val * 2 ^ k| < 2 ^ 31) :
    pinNumber false k v = .ok (integerPart (v.val * 2 ^ k)) := by
  have hp : (0 : Rat) < 2 ^ k := by positivity
  have hk' : (2 : Rat) ^ k ≤ 2 ^ 30 := pow_le_pow_right₀ (by norm_num) hk
  have hpow : rnd (2 ^ k) = 2 ^ k := by
    have := rnd_mul_pow (q := 1) (by simpa using rnd_int (n := 1) (by norm_num)) k
    simpa using this
  obtain ⟨p1, p2⟩ := Fl.ofRat_val (q := 2 ^ k) (by rw [hpow]; exact small128 (by rw [abs_of_pos hp]; linarith))
  rw [hpow] at p2
  have hx : rnd (v.val * (Fl.ofRat (2 ^ k)).val) = v.val * 2 ^ k := by rw [p2]; exact rnd_mul_pow ho.rnd_val k
  obtain ⟨m1, m2⟩ := Fl.mul_val hf p1 ho (Fl.ofRat_ok _) (by rw [hx]; exact small128 (hb.le.trans (by norm_num)))
  rw [hx] at m2
  have mo := Fl.mul_ok ho (Fl.ofRat_ok (2 ^ k))
  unfold pinNumber
  simp only [Bool.false_eq_true, if_false]
  cases hm : Fl.mul v (Fl.ofRat (2 ^ k)) with
  | nan => rw [hm] at m1; cases m1
  | inf s => rw [hm] at m1; cases m1
  | num s m =>
    rw [hm] at m2 mo
    have hm0 : 0 ≤ m := mo.1
    have hlt : m < 2 ^ 31 := by
      rw [← m2] at hb
      have : |(Fl.num s m).val| = m := by cases s <;> simp [Fl.val, abs_of_nonneg hm0]
      rwa [this] at hb
    have f0 : 0 ≤ ⌊m⌋ := Int.floor_nonneg.mpr hm0
    have f1 : ⌊m⌋ < 2 ^ 31 := by
      have := (Int.floor_le m).trans_lt hlt
      exact_mod_cast this
    have hn : (if s then -⌊m⌋ else ⌊m⌋) = integerPart (v.val * 2 ^ k) := by
      rw [← m2]
      cases s with
      | false => simp [Fl.val, integerPart, hm0]
      | true =>
        simp only [Fl.val, if_true, integerPart]
        split
        · have : m = 0 := by linarith
          subst this; simp
        · rw [neg_neg]
    simp only
    rw [hn, if_pos]
    rw [← hn]
    split <;> constructor <;> omega

theorem one_sub_read {n : Int} (h0 : 0 ≤ n) (h1 : n ≤ 2 ^ 23) :
    (Fl.sub (Fl.ofRat 1) (analogueRead n)).fin = true ∧ (Fl.sub (Fl.ofRat 1) (analogueRead n)).val = ((1024 - n : Int) : Rat) / 1024 := by
  have hone : (Fl.ofRat 1).fin = true ∧ (Fl.ofRat 1).val = 1 := by decide +kernel
  obtain ⟨r1, r2⟩ := C169_read h0 (by omega)
  have hm : |1024 - n| ≤ 2 ^ 24 := by rw [abs_le]; omega
  have e : rnd ((Fl.ofRat 1).val - (analogueRead n).val) = ((1024 - n : Int) : Rat) / 1024 := by
    have := exact1024 (m := 1024 - n) hm 0
    rw [pow_zero, mul_one] at this
    rw [hone.2, r2, show (1 : Rat) - n / 1024 = ((1024 - n : Int) : Rat) / 1024 by push_cast; ring]
    exact this
  have hb : |((1024 - n : Int) : Rat) / 1024| ≤ 2 ^ 40 := by
    have : |((1024 - n : Int) : Rat)| ≤ 2 ^ 24 := by exact_mod_cast hm
    rw [abs_div, abs_of_pos (by norm_num : (0 : Rat) < 1024)]
    linarith
  have := Fl.sub_val hone.1 r1 (by rw [e]; exact small128 hb)
  rw [e] at this
  exact this

theorem pinNumber_read {n : Int} (h0 : 0 ≤ n) (h1 : n ≤ 2 ^ 16) {k : Nat} (hk : k ≤ 24) (activeLow : Bool) :
    pinNumber activeLow k (analogueRead n) = .ok (integerPart (((if activeLow then 1024 - n else n : Int) : Rat) / 1024 * 2 ^ k)) := by
  have hk' : (2 : Rat) ^ k ≤ 2 ^ 24 := pow_le_pow_right₀ (by norm_num) hk
  have hp : (0 : Rat) < 2 ^ k := by positivity
  have hb : ∀ m : Int, |m| ≤ 2 ^ 16 → |(m : Rat) / 1024 * 2 ^ k| < 2 ^ 31 := by
    intro m hm
    have : |(m : Rat)| ≤ 2 ^ 16 := by exact_mod_cast hm
    rw [abs_mul, abs_div, abs_of_pos (by norm_num : (0 : Rat) < 1024), abs_of_pos hp]
    calc |(m : Rat)| / 1024 * 2 ^ k ≤ 2 ^ 16 / 1024 * 2 ^ 24 := by gcongr
      _ < 2 ^ 31 := by norm_num
  cases activeLow with
  | false =>
    obtain ⟨r1, r2⟩ := C169_read h0 (by omega)
    have := pinNumber_high r1 (Fl.ofRat_ok _) (k := k) (by omega) (by rw [r2]; exact hb n (by rw [abs_of_nonneg h0]; exact h1))
    rw [this, r2]
    rfl
  | true =>
    obtain ⟨s1, s2⟩ := one_sub_read h0 (by omega)
    have := pinNumber_high s1 (Fl.sub_ok _ _) (k := k) (by omega) (by rw [s2]; exact hb _ (by rw [abs_le]; omega))
    rw [s2] at this
    simp only [if_true]
    rw [← this]
    rfl

theorem in_unit {n : Int} (h0 : 0 ≤ n) (h1 : n ≤ 2 ^ 24) :
    (Arith.le (fzero : Fl) (analogueRead n) && Arith.le (analogueRead n) (Arith.ofRat 1)) = decide (n ≤ 1024) := by
  obtain ⟨r1, r2⟩ := C169_read h0 h1
  have hz : (fzero : Fl).fin = true ∧ (fzero : Fl).val = 0 := by decide +kernel
  have hone : (Fl.ofRat 1).fin = true ∧ (Fl.ofRat 1).val = 1 := by decide +kernel
  have a : Arith.le (fzero : Fl) (analogueRead n) = true := by
    refine (Fl.le_iff hz.1 r1).mpr ?_
    rw [hz.2, r2]
    have : (0 : Rat) ≤ n := by exact_mod_cast h0
    positivity
  rw [a, Bool.true_and, Bool.eq_iff_iff, decide_eq_true_eq]
  refine (Fl.le_iff r1 hone.1).trans ?_
  rw [r2, hone.2, div_le_one (by norm_num)]
  exact_mod_cast Iff.rfl

/-- C169 for converters of 10 bits: what is read can be passed to an output of any resolution up to 24 bits. The number written is the same fraction of its range, rounded down, and the
same number if the output has 10 bits, too. Missing: the number written for an output that is active on low, see `C169_low_counterexample`; wider converters, see
`C169_wide_counterexample`. -/
theorem C169_dimmer_partial {b : Build} {k : Nat} (hk : k ≤ 24) {n : Int} (h0 : 0 ≤ n) (h1 : n < 1024) :
    dimmer b false k n = .ok (n * 2 ^ k / 1024) ∧ 0 ≤ n * 2 ^ k / 1024 ∧ n * 2 ^ k / 1024 < 2 ^ k ∧ dimmer b true k n = .ok ((1024 - n) * 2 ^ k / 1024) ∧
      dimmer b false 10 n = .ok n := by
  have hassert : spnAssert b (Arith.le (fzero : Fl) (analogueRead n) && Arith.le (analogueRead n) (Arith.ofRat 1)) = .ok () := by
    rw [in_unit h0 (by omega), decide_eq_true (by omega), spnAssert_true]
  have hi : ∀ (m : Int) (k : Nat), 0 ≤ m → integerPart ((m : Rat) / 1024 * 2 ^ k) = m * 2 ^ k / 1024 := by
    intro m k hm
    have : (0 : Rat) ≤ m := by exact_mod_cast hm
    rw [integerPart, if_pos (by positivity), show (m : Rat) / 1024 * 2 ^ k = ((m * 2 ^ k : Int) : Rat) / ((1024 : Nat) : Rat) by push_cast; ring]
    exact Rat.floor_intCast_div_natCast _ _
  have hd : ∀ (a : Bool) (k : Nat), k ≤ 24 → dimmer b a k n = .ok ((if a then 1024 - n else n) * 2 ^ k / 1024) := by
    intro a k hk
    unfold dimmer
    simp only [hassert, res_bind_ok]
    rw [pinNumber_read h0 (by omega) hk, hi _ _ (by cases a <;> simp <;> omega)]
  have hp : (0 : Int) < 2 ^ k := by positivity
  refine ⟨by simpa using hd false k hk, Int.ediv_nonneg (by positivity) (by norm_num), ?_, by simpa using hd true k hk, ?_⟩
  · rw [Int.ediv_lt_iff_lt_mul (by norm_num), mul_comm]
    exact Int.mul_lt_mul_of_pos_left h1 hp
  · have := hd false 10 (by norm_num)
    rw [this]
    simp

/-- C169 is false for an output that is active on low: if nothing is read, the number written, 2^resolution, is not one of that many bits. -/
theorem C169_low_counterexample {b : Build} {k : Nat} (hk : k ≤ 24) : dimmer b true k 0 = .ok (2 ^ k) := by
  obtain ⟨-, -, -, e, -⟩ := C169_dimmer_partial (b := b) hk (n := 0) le_rfl (by norm_num)
  rw [e]
  congr 1
  rw [Int.sub_zero]
  exact Int.mul_ediv_cancel_left _ (by norm_num)

/-- C169 is false for converters of more than 10 bits, such as those of 12 bits of the ESP32: everything read above a quarter of the range is above 1. Passing it to an output fails
an assertion; in release builds, a number outside of the range is written, with an output active on low a negative one. -/
theorem C169_wide_counterexample {k : Nat} (hk : k ≤ 24) {n : Int} (h0 : 1024 < n) (h1 : n ≤ 2 ^ 16) :
    1 < (analogueRead n).val ∧ (∀ activeLow, dimmer .debug activeLow k n = .error .assertFailed) ∧
      (∃ m, dimmer .release false k n = .ok m ∧ 2 ^ k ≤ m) ∧ (10 ≤ k → ∃ m, dimmer .release true k n = .ok m ∧ m < 0) := by
  have hn : (1024 : Rat) < n := by exact_mod_cast h0
  have hp : (0 : Rat) < 2 ^ k := by positivity
  refine ⟨?_, ?_, ⟨integerPart ((n : Rat) / 1024 * 2 ^ k), ?_, ?_⟩, fun hk' => ⟨integerPart (((1024 - n : Int) : Rat) / 1024 * 2 ^ k), ?_, ?_⟩⟩
  · rw [(C169_read (by omega) (by omega)).2, lt_div_iff₀ (by norm_num)]; linarith
  · intro a
    unfold dimmer
    simp only [in_unit (by omega : 0 ≤ n) (by omega), decide_eq_false (by omega : ¬n ≤ 1024), spnAssert_debug_false, res_bind_error]
  · unfold dimmer
    simp only [spnAssert_release, res_bind_ok]
    simpa using pinNumber_read (by omega : 0 ≤ n) h1 hk false
  · rw [integerPart, if_pos (by positivity), Int.le_floor]
    push_cast
    rw [le_mul_iff_one_le_left hp, le_div_iff₀ (by norm_num)]
    linarith
  · unfold dimmer
    simp only [spnAssert_release, res_bind_ok]
    simpa using pinNumber_read (by omega : 0 ≤ n) h1 hk true
  · have hle : ((1024 - n : Int) : Rat) / 1024 * 2 ^ k ≤ -1 := by
      have h1 : ((1024 - n : Int) : Rat) ≤ -1 := by exact_mod_cast (by omega : 1024 - n ≤ -1)
      have h2 : (2 : Rat) ^ 10 ≤ 2 ^ k := pow_le_pow_right₀ (by norm_num) hk'
      have h3 : ((1024 - n : Int) : Rat) / 1024 * 2 ^ k = ((1024 - n : Int) : Rat) * (2 ^ k / 1024) := by ring
      rw [h3]
      have h4 : (1 : Rat) ≤ 2 ^ k / 1024 := by rw [le_div_iff₀ (by norm_num)]; linarith
      nlinarith
    rw [integerPart, if_neg (by linarith)]
    have : (1 : Int) ≤ ⌊-(((1024 - n : Int) : Rat) / 1024 * 2 ^ k)⌋ := by
      rw [Int.le_floor]
      push_cast at hle ⊢
      linarith
    omega

theorem map_read {n : Int} (h0 : 0 ≤ n) (h1 : n ≤ 2 ^ 24) {top : Rat} {c : Int} (hc : top = c) (hc0 : 0 ≤ c) (hc1 : c ≤ 2 ^ 13) :
    ∃ v : Fl, (MapCfg.map ⟨fzero, Arith.ofRat 1, fzero, Arith.ofRat top, false⟩ (analogueRead n)) = .ok (some v) ∧ v.fin = true ∧ v.val = min n 1024 * c / 1024 := by
  obtain ⟨r1, r2⟩ := C169_read h0 h1
  have hz : (fzero : Fl).fin = true ∧ (fzero : Fl).val = 0 := by decide +kernel
  have hone : (Fl.ofRat 1).fin = true ∧ (Fl.ofRat 1).val = 1 := by decide +kernel
  have hc' : |c| ≤ 2 ^ 24 := by rw [abs_of_nonneg hc0]; omega
  have hcq : (0 : Rat) ≤ c ∧ (c : Rat) ≤ 2 ^ 13 := ⟨by exact_mod_cast hc0, by exact_mod_cast hc1⟩
  have htop : (Fl.ofRat top).fin = true ∧ (Fl.ofRat top).val = c := by
    have e := rnd_int hc'
    have := Fl.ofRat_val (q := top) (by rw [hc, e]; exact small128 (by rw [abs_of_nonneg hcq.1]; linarith))
    rw [hc, e] at this
    rw [hc]; exact this
  -- the scaling of an exact reading `m / 1024`
  have hs : ∀ (x : Fl) (m : Int), x.fin = true → x.Ok → x.val = m / 1024 → 0 ≤ m → m ≤ 1024 →
      (Arith.add fzero (Arith.mul (Arith.div (Arith.sub x fzero) (Arith.sub (Arith.ofRat 1 : Fl) fzero)) (Arith.sub (Arith.ofRat top) fzero)) : Fl).fin = true ∧
      (Arith.add fzero (Arith.mul (Arith.div (Arith.sub x fzero) (Arith.sub (Arith.ofRat 1 : Fl) fzero)) (Arith.sub (Arith.ofRat top) fzero)) : Fl).val = m * c / 1024 := by
    intro x m hx hxo hxv hm0 hm1
    have hmq : (0 : Rat) ≤ m ∧ (m : Rat) ≤ 1024 := ⟨by exact_mod_cast hm0, by exact_mod_cast hm1⟩
    have ex : rnd ((m : Rat) / 1024) = m / 1024 := by
      have := exact1024 (m := m) (by rw [abs_of_nonneg hm0]; omega) 0
      rwa [pow_zero, mul_one] at this
    have bx : |(m : Rat) / 1024| ≤ 2 ^ 40 := by rw [abs_of_nonneg (by have := hmq.1; positivity)]; linarith [hmq.2]
    obtain ⟨a1, a2⟩ := Fl.sub_val (x := x) (y := fzero) hx hz.1 (by rw [hz.2, sub_zero, hxv, ex]; exact small128 bx)
    rw [hz.2, sub_zero, hxv, ex] at a2
    have e1 : rnd (1 : Rat) = 1 := by simpa using rnd_int (n := 1) (by norm_num)
    obtain ⟨b1, b2⟩ := Fl.sub_val (x := Fl.ofRat 1) (y := fzero) hone.1 hz.1 (by rw [hz.2, sub_zero, hone.2, e1]; exact small128 (by norm_num))
    rw [hz.2, sub_zero, hone.2, e1] at b2
    have ec : rnd (c : Rat) = c := rnd_int hc'
    obtain ⟨c1, c2⟩ := Fl.sub_val (x := Fl.ofRat top) (y := fzero) htop.1 hz.1
      (by rw [hz.2, sub_zero, htop.2, ec]; exact small128 (by rw [abs_of_nonneg hcq.1]; linarith [hcq.2]))
    rw [hz.2, sub_zero, htop.2, ec] at c2
    obtain ⟨d1, d2⟩ := Fl.div_val a1 b1 (Fl.sub_ok _ _) (Fl.sub_ok _ _) (by rw [b2]; norm_num) (by rw [a2, b2, div_one, ex]; exact small128 bx)
    rw [a2, b2, div_one, ex] at d2
    have em : rnd ((m : Rat) / 1024 * c) = m / 1024 * c := by
      have := exact1024 (m := m * c) (by
        rw [abs_of_nonneg (by positivity)]
        calc m * c ≤ 1024 * 2 ^ 13 := by gcongr
          _ ≤ 2 ^ 24 := by norm_num) 0
      rw [pow_zero, mul_one] at this
      rw [show (m : Rat) / 1024 * c = ((m * c : Int) : Rat) / 1024 by push_cast; ring]
      exact this
    have bm : |(m : Rat) / 1024 * c| ≤ 2 ^ 40 := by
      rw [abs_of_nonneg (by have := hmq.1; have := hcq.1; positivity)]
      calc (m : Rat) / 1024 * c ≤ 1024 / 1024 * 2 ^ 13 := by have := hmq.2; have := hcq.2; have := hcq.1; gcongr
        _ ≤ 2 ^ 40 := by norm_num
    obtain ⟨m1, m2⟩ := Fl.mul_val d1 c1 (Fl.div_ok (Fl.sub_ok _ _) (Fl.sub_ok _ _)) (Fl.sub_ok _ _) (by rw [d2, c2, em]; exact small128 bm)
    rw [d2, c2, em] at m2
    obtain ⟨s1, s2⟩ := Fl.add_val hz.1 m1 (by rw [hz.2, zero_add, m2, em]; exact small128 bm)
    rw [hz.2, zero_add, m2, em] at s2
    exact ⟨s1, by rw [show (m : Rat) * c / 1024 = m / 1024 * c by ring]; exact s2⟩
  have lo : Arith.lt (analogueRead n) (fzero : Fl) = false := by
    rw [Bool.eq_false_iff]
    intro h
    have := (Fl.lt_iff r1 hz.1).mp h
    rw [r2, hz.2] at this
    have : (0 : Rat) ≤ n := by exact_mod_cast h0
    have : (0 : Rat) ≤ n / 1024 := by positivity
    linarith
  have hi : Arith.lt (Arith.ofRat 1 : Fl) (analogueRead n) = decide (1024 < n) := by
    rw [Bool.eq_iff_iff, decide_eq_true_eq]
    refine (Fl.lt_iff hone.1 r1).trans ?_
    rw [r2, hone.2, lt_div_iff₀ (by norm_num), one_mul]
    exact_mod_cast Iff.rfl
  by_cases hn : 1024 < n
  · rw [decide_eq_true hn] at hi
    obtain ⟨s1, s2⟩ := hs (Fl.ofRat 1) 1024 hone.1 (Fl.ofRat_ok _) (by rw [hone.2]; norm_num) (by norm_num) le_rfl
    have hcl : fclamp (analogueRead n) (fzero : Fl) (Arith.ofRat 1) = .ok (Arith.ofRat 1) := by
      unfold fclamp
      have : Arith.lt (Arith.ofRat 1 : Fl) fzero = false := by decide +kernel
      simp [this, lo, hi]
    refine ⟨_, ?_, s1, ?_⟩
    · unfold MapCfg.map
      simp only [lo, hi, Bool.or_true, if_true, Bool.false_eq_true, if_false, hcl, res_bind_ok]
      rfl
    · rw [s2, Int.min_eq_right hn.le]
  · rw [decide_eq_false hn] at hi
    obtain ⟨s1, s2⟩ := hs (analogueRead n) n r1 (Fl.ofRat_ok _) r2 h0 (by omega)
    refine ⟨_, ?_, s1, ?_⟩
    · unfold MapCfg.map
      simp only [lo, hi, Bool.or_false, Bool.false_eq_true, if_false]
      rfl
    · rw [s2, Int.min_eq_left (by omega)]

/-- C169: the ready-made filters give the exact percentage and permillage of what is read, without any rounding, and all there is for what is read above 1. -/
theorem C169_percentage {n : Int} (h0 : 0 ≤ n) (h1 : n ≤ 2 ^ 24) :
    (∃ v : Fl, (MapCfg.percentage fzero (Arith.ofRat 1)).map (analogueRead n) = .ok (some v) ∧ v.fin = true ∧ v.val = min n 1024 * 100 / 1024) ∧
    ∃ v : Fl, (MapCfg.permillage fzero (Arith.ofRat 1)).map (analogueRead n) = .ok (some v) ∧ v.fin = true ∧ v.val = min n 1024 * 1000 / 1024 := by
  refine ⟨?_, ?_⟩
  · simpa [MapCfg.percentage] using map_read h0 h1 (top := 100) (c := 100) (by norm_num) (by norm_num) (by norm_num)
  · simpa [MapCfg.permillage] using map_read h0 h1 (top := 1000) (c := 1000) (by norm_num) (by norm_num) (by norm_num)

/-! ### Examples -/

example : dimmer .debug false 8 512 = .ok 128 ∧ dimmer .debug true 8 512 = .ok 128 ∧ dimmer .debug false 10 1023 = .ok 1023 ∧ dimmer .debug false 8 4095 = .error .assertFailed ∧
    dimmer .release false 8 4095 = .ok 1023 ∧ dimmer .release true 10 4095 = .ok (-3071) := by decide +kernel

example : (MapCfg.percentage fzero (Arith.ofRat 1)).map (analogueRead 256) = .ok (some (Fl.ofRat 25)) := by decide +kernel

end Spine

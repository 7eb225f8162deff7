import Verif.Model.Pid
import Verif.Props.Interrupt
import Verif.Model.Gpio
import Verif.Model.StaticString
import Verif.Props.Text
import Verif.Props.StaticString
import Verif.Props.Compound
import Verif.Props.FilterUnits
import Verif.Core.Bind
/-!
# C199: repeating a setting changes nothing
-/

namespace Spine

/-- Specification: the call `f` made twice does what it does when made once: the second call succeeds and leaves the object as it is. -/
def Settles {σ : Type} (f : σ → Res σ) : Prop := ∀ s s', f s = .ok s' → f s' = .ok s'

/-! ## Controllers -/

section
variable {F : Type} [Arith F]

/-- **C199.** Setting the same gains again, in any arithmetic. -/
theorem C199_tunings (b : Build) (kp ki kd : F) (m : Bool) : Settles fun s : Pid F => s.setTunings b kp ki kd m := by
  intro s s' h
  unfold Pid.setTunings at h ⊢
  obtain ⟨_, e1, h⟩ := res_bind h
  obtain ⟨c, e2, h⟩ := res_bind h
  obtain ⟨_, e3, h⟩ := res_bind h
  obtain rfl := Except.ok.inj h
  obtain ⟨kp0, ki0, kd0, r, inp, out, sp, lt, cu, lr, sa, lo, hi, om⟩ := s
  simp only at e2 e3
  cases r <;> simp [Pid.negate, e1, e2, e3, res_bind_ok]

/-- **C199.** Setting the same direction again, in any arithmetic. -/
theorem C199_direction (r : Bool) : Settles fun s : Pid F => .ok (s.setDirection r) := by
  intro s s' h
  obtain rfl := Except.ok.inj h
  unfold Pid.setDirection
  by_cases e : r = s.reverse
  · simp [e]
  · simp [e]

theorem clamp_clamp [LawfulArith F] {lo hi : F} (h : Arith.le hi lo = false) (x : F) : Pid.clamp lo hi (Pid.clamp lo hi x) = Pid.clamp lo hi x := by
  have h1 : Arith.lt hi lo = false := by
    cases e : Arith.lt hi lo with
    | false => rfl
    | true => rw [LawfulArith.lt_le _ _ e] at h; cases h
  unfold Pid.clamp
  by_cases c1 : Arith.lt hi x = true
  · simp [c1, LawfulArith.irrefl hi, h1]
  · by_cases c2 : Arith.lt x lo = true
    · simp [c1, c2, LawfulArith.irrefl lo, h1]
    · simp [c1, c2]

/-- **C199.** Setting the same limits again, in any arithmetic, in particular with floats. -/
theorem C199_limits [LawfulArith F] (lo hi : F) : Settles fun s : Pid F => .ok (s.setLimits lo hi) := by
  intro s s' h
  obtain rfl := Except.ok.inj h
  unfold Pid.setLimits
  by_cases e : Arith.le hi lo = true
  · simp [e]
  · have e : Arith.le hi lo = false := by simpa using e
    simp [e, clamp_clamp e]

/-- The gains of the controller keep their values when they are multiplied and divided by one. -/
def Pid.KeptByOne (s : Pid F) : Prop := Arith.mul s.ki (Arith.ofRat 1) = s.ki ∧ Arith.div s.kd (Arith.ofRat 1) = s.kd

theorem setSampling_again {t : Int} {s s' : Pid F} (h : s.setSampling t = .ok s') {x : Pid F} (hx : x.sampling = s'.sampling) (hk : x.KeptByOne) : x.setSampling t = .ok x := by
  unfold Pid.setSampling at h ⊢
  obtain ⟨c, e, h⟩ := res_bind h
  rw [e]
  cases c with
  | false => rfl
  | true =>
    simp only [if_true] at h
    split at h
    · cases h
    · obtain rfl := Except.ok.inj h
      obtain ⟨kp0, ki0, kd0, r, inp, out, sp, lt, cu, lr, sa, lo, hi, om⟩ := x
      simp only at hx
      subst hx
      by_cases h0 : sa = 0
      · subst h0
        have : msGt 0 0 = .ok false := by decide +kernel
        rw [this] at e
        cases e
      · have e1 : (Int.tdiv sa sa : Int) = 1 := Int.tdiv_self h0
        simp only [Pid.KeptByOne] at hk
        simp only [res_bind_ok, if_true, h0, if_false, e1, Int.cast_one, hk.1, hk.2]
        rfl

theorem setSampling_kept {t : Int} {s s' : Pid F} (h : s.setSampling t = .ok s') : s'.output = s.output ∧ s'.lo = s.lo ∧ s'.hi = s.hi ∧
    (s' = s ∨ ∃ q : Rat, s'.ki = Arith.mul s.ki (Arith.ofRat q) ∧ s'.kd = Arith.div s.kd (Arith.ofRat q)) := by
  unfold Pid.setSampling at h
  obtain ⟨c, -, h⟩ := res_bind h
  cases c with
  | false => obtain rfl := Except.ok.inj h; exact ⟨rfl, rfl, rfl, .inl rfl⟩
  | true =>
    simp only [if_true] at h
    split at h
    · cases h
    · obtain rfl := Except.ok.inj h; exact ⟨rfl, rfl, rfl, .inr ⟨_, rfl, rfl⟩⟩

theorem start_again [LawfulArith F] {cfg : PidConfig F} {s s' : Pid F} (h : PID.start cfg s = .ok s') (hk : s'.KeptByOne) : PID.start cfg s' = .ok s' := by
  unfold PID.start at h ⊢
  obtain ⟨s1, e1, h⟩ := res_bind h
  obtain rfl := Except.ok.inj h
  obtain ⟨k1, k2, k3, -⟩ := setSampling_kept e1
  have k2 : s1.start.setLimits cfg.lower cfg.upper = s1.start := by
    by_cases e : Arith.le cfg.upper cfg.lower = true
    · simp [Pid.setLimits, e]
    · have hl : Arith.le cfg.upper cfg.lower = false := by simpa using e
      simp only [Pid.setLimits, hl, Bool.false_eq_true, if_false] at k1 k2 k3
      obtain ⟨kp0, ki0, kd0, r, inp, out, sp, lt, cu, lr, sa, lo, hi, om⟩ := s1
      simp only at k1 k2 k3
      subst k1 k2 k3
      simp [Pid.setLimits, hl, Pid.start, clamp_clamp hl]
  rw [k2, setSampling_again (x := s1.start) e1 rfl hk, res_bind_ok]
  rfl

end

theorem keptByOne_rat (s : Pid Rat) : s.KeptByOne := ⟨mul_one _, div_one _⟩

theorem Fl.one_eq : (Arith.ofRat 1 : Fl) = .num false 1 := by decide +kernel

theorem keptByOne_fl {s : Pid Fl} (h1 : s.ki.Ok) (h2 : s.kd.Ok) : s.KeptByOne := by
  have key : ∀ {x : Fl}, x.Ok → Fl.mul x (.num false 1) = x ∧ Fl.div x (.num false 1) = x := by
    intro x hx
    cases x with
    | nan => exact ⟨rfl, rfl⟩
    | inf s => simp [Fl.mul, Fl.div]
    | num s m =>
      obtain ⟨-, e, hl⟩ := hx
      simp [Fl.mul, Fl.div, Fl.round, e, hl]
  unfold Pid.KeptByOne
  rw [Fl.one_eq]
  exact ⟨(key h1).1, (key h2).2⟩

/-- **C199.** Setting the same sampling time again, in exact arithmetic. -/
theorem C199_sampling (t : Int) : Settles fun s : Pid Rat => s.setSampling t := fun _ _ h => setSampling_again h rfl (keptByOne_rat _)

/-- **C199.** Initialising a controller again before it takes a reading, in exact arithmetic. -/
theorem C199_initialize (cfg : PidConfig Rat) : Settles (PID.start cfg) := fun _ _ h => start_again h (keptByOne_rat _)

theorem setSampling_ok {t : Int} {s s' : Pid Fl} (h1 : s.ki.Ok) (h2 : s.kd.Ok) (h : s.setSampling t = .ok s') : s'.ki.Ok ∧ s'.kd.Ok := by
  obtain ⟨-, -, -, rfl | ⟨q, e1, e2⟩⟩ := setSampling_kept h
  · exact ⟨h1, h2⟩
  · rw [e1, e2]; exact ⟨Fl.mul_ok h1 (Fl.ofRat_ok q), Fl.div_ok h2 (Fl.ofRat_ok q)⟩

/-- **C199.** The same with floats, whatever the gains are, NaN included. -/
theorem C199_float {s s' : Pid Fl} (h1 : s.ki.Ok) (h2 : s.kd.Ok) :
    (∀ t, s.setSampling t = .ok s' → s'.setSampling t = .ok s') ∧ ∀ cfg, PID.start cfg s = .ok s' → PID.start cfg s' = .ok s' := by
  refine ⟨fun t h => setSampling_again h rfl ?_, fun cfg h => start_again h ?_⟩
  · obtain ⟨a, b⟩ := setSampling_ok h1 h2 h
    exact keptByOne_fl a b
  · unfold PID.start at h
    obtain ⟨s1, e1, h⟩ := res_bind h
    obtain rfl := Except.ok.inj h
    have k : (s.setLimits cfg.lower cfg.upper).ki = s.ki ∧ (s.setLimits cfg.lower cfg.upper).kd = s.kd := by
      unfold Pid.setLimits; split <;> exact ⟨rfl, rfl⟩
    obtain ⟨a, b⟩ := setSampling_ok (k.1 ▸ h1) (k.2 ▸ h2) e1
    exact keptByOne_fl a b

/-! ## Texts -/

theorem lstrip_once {s d r r' : List Char} (h : IsLstrip s d r) (h' : IsLstrip r d r') : r' = r := by
  obtain ⟨p, -, -, h⟩ := h
  obtain ⟨q, e, h1, -⟩ := h'
  cases q with
  | nil => exact e.symm
  | cons c q => exact absurd (h1 c (by simp)) (h c (by rw [e]; rfl))

theorem rstrip_once {s d r r' : List Char} (h : IsRstrip s d r) (h' : IsRstrip r d r') : r' = r := by
  obtain ⟨p, -, -, h⟩ := h
  obtain ⟨q, e, h1, -⟩ := h'
  rcases List.eq_nil_or_concat q with rfl | ⟨q, c, rfl⟩
  · simpa using e.symm
  · exact absurd (h1 c (by simp)) (h c (by rw [e]; simp))

/-- **C199.** Stripping the beginning of a text again. -/
theorem C199_lstrip (d : List Char) : Settles fun s => Text.lstrip s d := by
  intro s s' h
  by_cases hb : ∃ c ∈ s, c ∉ d
  · obtain ⟨r, e, k⟩ := C56_lstrip_partial hb
    obtain rfl := Except.ok.inj (e.symm.trans h)
    have hb' : ∃ c ∈ r, c ∉ d := by
      obtain ⟨p, e, h1, -⟩ := k
      obtain ⟨c, hc, hn⟩ := hb
      rw [e] at hc
      exact ⟨c, (List.mem_append.mp hc).resolve_left fun hp => hn (h1 c hp), hn⟩
    obtain ⟨r', e', k'⟩ := C56_lstrip_partial hb'
    rw [lstrip_once k k'] at e'
    exact e'
  · push Not at hb
    exact absurd ((C56_blank_counterexample hb).1.symm.trans h) (by simp)

/-- C199 is false for `rstrip`: each call takes as many characters off the beginning as there are delimiters at the end. -/
theorem C199_rstrip_counterexample : Text.rstrip ['a', 'b', 'c', ' '] [' '] = .ok ['b', 'c', ' '] ∧ Text.rstrip ['b', 'c', ' '] [' '] = .ok ['c', ' '] := ⟨rfl, rfl⟩

/-- **C199.** Stripping a StaticString again, from either side. -/
theorem C199_static_string (b : Build) (d : List Char) {s s' : StaticString} (hv : s.Valid) : (s.lstrip b d = .ok s' → s'.lstrip b d = .ok s') ∧ (s.rstrip b d = .ok s' → s'.rstrip b d = .ok s') := by
  by_cases hb : ∃ c ∈ s.chars, c ∉ d
  · obtain ⟨⟨l, e1, k1⟩, r, e2, k2⟩ := StaticString.C103_strip_partial b hv hb
    unfold StaticString.Valid at hv
    constructor
    · intro h
      obtain rfl := Except.ok.inj (e1.symm.trans h)
      obtain ⟨p, e, h1, -⟩ := id k1
      have hb' : ∃ c ∈ l, c ∉ d := by
        obtain ⟨c, hc, hn⟩ := hb
        rw [e] at hc
        exact ⟨c, (List.mem_append.mp hc).resolve_left fun hp => hn (h1 c hp), hn⟩
      have hl := congrArg List.length e
      rw [List.length_append] at hl
      obtain ⟨⟨l', e1', k1'⟩, -⟩ := StaticString.C103_strip_partial b (s := ⟨l, s.capacity⟩) (by unfold StaticString.Valid; simp only; omega) hb'
      rw [lstrip_once k1 k1'] at e1'
      exact e1'
    · intro h
      obtain rfl := Except.ok.inj (e2.symm.trans h)
      obtain ⟨p, e, h1, -⟩ := id k2
      have hb' : ∃ c ∈ r, c ∉ d := by
        obtain ⟨c, hc, hn⟩ := hb
        rw [e] at hc
        exact ⟨c, (List.mem_append.mp hc).resolve_right fun hp => hn (h1 c hp), hn⟩
      have hl := congrArg List.length e
      rw [List.length_append] at hl
      obtain ⟨-, r', e2', k2'⟩ := StaticString.C103_strip_partial b (s := ⟨r, s.capacity⟩) (by unfold StaticString.Valid; simp only; omega) hb'
      rw [rstrip_once k2 k2'] at e2'
      exact e2'
  · push Not at hb
    have := StaticString.C103_blank_counterexample b hb
    exact ⟨fun h => absurd (this.1.symm.trans h) (by simp), fun h => absurd (this.2.symm.trans h) (by simp)⟩

/-! ## Fractions -/

/-- **C199.** Simplifying a fraction of integers again. Missing: negative ones, which simplify gets wrong (C90). -/
theorem C199_simplify_partial {n d : Int} (hn : 0 ≤ n) (hd : 0 < d) (bn : n < 2 ^ 63) (bd : d < 2 ^ 63) {r : Int × Int} (h : Compound.simplifyInt (n, d) = .ok r) :
    Compound.simplifyInt r = .ok r := by
  obtain ⟨n', d', e, hq, hg, hd'⟩ := C90_int_partial hn hd bn bd
  obtain rfl := Except.ok.inj (e.symm.trans h)
  have hn' : 0 ≤ n' := by
    have h1 : 0 ≤ n' * d := hq ▸ Int.mul_nonneg hn hd'.le
    exact Int.nonneg_of_mul_nonneg_left h1 hd
  have b : n' < 2 ^ 63 ∧ d' < 2 ^ 63 := by
    have key : ∀ {v : Int} {g : Nat} {w : Int}, Compound.divideUnsigned v g = .ok w → w < 2 ^ 63 := by
      intro v g w hw
      unfold Compound.divideUnsigned at hw
      split at hw
      · cases hw
      · obtain rfl := Except.ok.inj hw
        have := Int.bmod_lt (x := (v % 2 ^ 64) / g) (m := 2 ^ 64) (by decide)
        omega
    unfold Compound.simplifyInt at e
    split at e
    · cases e
    · obtain ⟨x, e1, e⟩ := res_bind e
      obtain ⟨y, e2, e⟩ := res_bind e
      obtain ⟨rfl, rfl⟩ := Prod.mk.inj (Except.ok.inj e)
      exact ⟨key e1, key e2⟩
  have one : ∀ v : Int, 0 ≤ v → v < 2 ^ 63 → Compound.divideUnsigned v 1 = .ok v := by
    intro v h0 h1
    rw [Compound.divideUnsigned, if_neg (by decide), Int.emod_eq_of_lt h0 (by omega)]
    simp only [Nat.cast_one, Int.ediv_one]
    rw [Int.bmod_eq_of_le (by omega) (by omega)]
  rw [Compound.simplifyInt, if_neg (by simp only; omega)]
  simp only [hg, one n' hn' b.1, one d' hd'.le b.2, res_bind_ok]
  rfl

/-- C199 is false for negative fractions: -6/10 becomes another fraction, and that one yet another. -/
theorem C199_simplify_counterexample : Compound.simplifyInt (-6, 10) = .ok (9223372036854775805, 5) ∧ Compound.simplifyInt (9223372036854775805, 5) = .ok (1844674407370955161, 1) := by
  decide +kernel

theorem roundAway_ediv {y : Rat} {g : Nat} (hg : 0 < g) {a : Int} (h : F32.roundAway y = g * a) : F32.roundAway (y / g) = a := by
  have hq : (0 : Rat) < g := by exact_mod_cast hg
  have h1 : (1 : Rat) ≤ g := by exact_mod_cast hg
  unfold F32.roundAway at h ⊢
  by_cases hy : 0 ≤ y
  · rw [if_pos hy] at h
    rw [if_pos (div_nonneg hy hq.le)]
    rw [Int.floor_eq_iff] at h ⊢
    push_cast at h
    constructor
    · have : (a : Rat) - 1 / 2 ≤ y / g := by rw [le_div_iff₀ hq]; nlinarith [h.1]
      linarith
    · have : y / g < (a : Rat) + 1 / 2 := by rw [div_lt_iff₀ hq]; nlinarith [h.2]
      linarith
  · have hy' : ¬ 0 ≤ y / g := by
      have : y / g < 0 := div_neg_of_neg_of_pos (not_le.mp hy) hq
      exact not_le.mpr this
    rw [if_neg hy] at h
    rw [if_neg hy']
    have h : ⌊-y + 1 / 2⌋ = g * (-a) := by rw [mul_neg, ← h, neg_neg]
    rw [neg_eq_iff_eq_neg]
    rw [Int.floor_eq_iff] at h ⊢
    push_cast at h ⊢
    constructor
    · have : y / g ≤ (a : Rat) + 1 / 2 := by rw [div_le_iff₀ hq]; nlinarith [h.1]
      linarith
    · have : (a : Rat) - 1 / 2 < y / g := by rw [lt_div_iff₀ hq]; nlinarith [h.2]
      linarith

theorem scaleToInteger_div {x f : Rat} {n g : Nat} (h : Compound.scaleToInteger x f = .ok n) (hg : 0 < g) (hd : g ∣ n) : Compound.scaleToInteger (x / g) f = .ok (n / g) := by
  obtain ⟨a, rfl⟩ := hd
  unfold Compound.scaleToInteger at h ⊢
  simp only at h ⊢
  split at h
  · next hr =>
    have e : F32.roundAway (x * f) = (g : Int) * (a : Int) := by
      have := Except.ok.inj h
      have := hr.1
      omega
    have e2 : F32.roundAway (x / g * f) = a := by
      rw [div_mul_eq_mul_div]
      exact roundAway_ediv hg e
    have hl : (a : Int) ≤ (g : Int) * a := by
      have : (1 : Int) ≤ g := by exact_mod_cast hg
      nlinarith [Int.natCast_nonneg a]
    rw [e] at hr
    rw [e2, if_pos ⟨by omega, by omega⟩, Nat.mul_div_cancel_left _ hg]
    simp
  · cases h

/-- **C199.** Simplifying a fraction of numbers that are not integers again, in exact arithmetic, with any factor. -/
theorem C199_simplify (factor : Rat) : Settles (Compound.simplify factor) := by
  intro a r h
  unfold Compound.simplify at h ⊢
  obtain ⟨n, e1, h⟩ := res_bind h
  obtain ⟨d, e2, h⟩ := res_bind h
  obtain ⟨x, e3, h⟩ := res_bind h
  obtain ⟨y, e4, h⟩ := res_bind h
  obtain rfl := Except.ok.inj h
  have dv : ∀ v g : Rat, RUnit.divide v g = if g = 0 then .error .exception else .ok (v / g) := by
    intro v g
    have : feq g (fzero : Rat) = decide (g = 0) := feq_rat g 0
    rw [RUnit.divide, this]
    by_cases hg : g = 0 <;> simp [hg]
    rfl
  have hg : 0 < Nat.gcd n d := by
    rcases Nat.eq_zero_or_pos (Nat.gcd n d) with h0 | h0
    · rw [dv, h0] at e3; simp at e3
    · exact h0
  have hq : ((Nat.gcd n d : Nat) : Rat) ≠ 0 := by exact_mod_cast hg.ne'
  rw [dv, if_neg hq] at e3 e4
  obtain rfl := Except.ok.inj e3
  obtain rfl := Except.ok.inj e4
  simp only [scaleToInteger_div e1 hg (Nat.gcd_dvd_left ..), scaleToInteger_div e2 hg (Nat.gcd_dvd_right ..), res_bind_ok, (Nat.coprime_div_gcd_div_gcd hg).gcd_eq_one, Nat.cast_one, dv, one_ne_zero, if_false, div_one]
  rfl

/-! ## Pins -/

/-- **C199.** Setting the same state of an output again. -/
theorem C199_output (c : DigitalOut.Call) (hc : c ≠ .flip) : Settles fun d : DigitalOut => .ok (d.call c) := by
  intro d d' h
  obtain rfl := Except.ok.inj h
  cases c <;> first | rfl | exact absurd rfl hc

/-- **C199.** Attaching the same interrupt again, and detaching again. -/
theorem C199_interrupt {H : Type} (b : Build) (board : Board) (c : Option H) (t : Trigger) :
    (Settles fun s : Interrupt H × Lines H => Interrupt.attach b board s.2 s.1 c t) ∧ Settles fun s : Interrupt H × Lines H => .ok (s.1, Interrupt.detach s.2 s.1) := by
  constructor
  · have again : ∀ (ls : Lines H) n e, Interrupt.attachLine board (Interrupt.attachLine board ls n e) n e = Interrupt.attachLine board ls n e := by
      intro ls n e
      funext k
      simp only [Interrupt.attachLine]
      split <;> rfl
    have ht : ∀ m : Trigger, (if t ≠ .undefined then t else if t ≠ .undefined then t else m) = if t ≠ .undefined then t else m := by
      intro m; split <;> rfl
    rintro ⟨i, ls⟩ ⟨i', ls'⟩ h
    simp only [Interrupt.attach] at h ⊢
    by_cases hd : board.direct = true
    · rw [if_pos hd] at h ⊢
      obtain ⟨rfl, rfl⟩ := Prod.mk.inj (Except.ok.inj h)
      cases c <;> (simp only [ht, again]; rfl)
    · rw [if_neg hd] at h ⊢
      obtain ⟨_, e, h⟩ := res_bind h
      cases hl : board.line i.pin with
      | none =>
        simp only [hl] at h e
        obtain ⟨rfl, rfl⟩ := Prod.mk.inj (Except.ok.inj h)
        cases c <;> (simp only [hl, e, res_bind_ok, ht]; rfl)
      | some n =>
        simp only [hl] at h e
        obtain ⟨rfl, rfl⟩ := Prod.mk.inj (Except.ok.inj h)
        cases c <;> (simp only [hl, e, res_bind_ok, ht, again]; rfl)
  · rintro ⟨i, ls⟩ s' h
    obtain rfl := Except.ok.inj h
    have : ∀ n, Interrupt.detachLine (Interrupt.detachLine ls n) n = Interrupt.detachLine ls n := by
      intro n
      funext k
      simp only [Interrupt.detachLine]
      split <;> rfl
    simp only [Interrupt.detach, this]

/-! ## Filters -/

/-- Resetting the filter again has no effect. -/
def Filter.ResetsOnce {F : Type} (f : Filter F) : Prop := ∀ s v, f.reset (f.reset s v) v = f.reset s v

/-- **C199.** Resetting again any of the filters of the library, in any arithmetic. -/
theorem C199_filters {F : Type} [Arith F] (k lo hi : F) (b : Build) (c : BandCfg F) (m : MapCfg F) :
    (Filter.ewma k).ResetsOnce ∧ (Filter.band c).ResetsOnce ∧ (Filter.mapped m).ResetsOnce ∧ (Filter.inverter b lo hi).ResetsOnce ∧ (Filter.passthrough : Filter F).ResetsOnce :=
  ⟨fun _ _ => rfl, fun _ _ => rfl, fun _ _ => rfl, fun _ _ => rfl, fun _ _ => rfl⟩

/-- **C199.** Resetting again a stack of such filters. -/
theorem C199_stack {F : Type} (v : F) (st : FilterStack F) (hf : ∀ f, some f ∈ st → f.ResetsOnce) : ∀ st', st.resetTo v = .ok st' → FilterStack.resetTo st' v = .ok st' := by
  induction st with
  | nil => intro st' h; obtain rfl := Except.ok.inj h; rfl
  | cons x st ih =>
    intro st' h
    cases x with
    | none => cases h
    | some f =>
      cases h2 : FilterStack.resetTo st v with
      | error e => rw [FilterStack.resetTo, h2] at h; cases h
      | ok st1 =>
        rw [FilterStack.resetTo, h2] at h
        obtain rfl := Except.ok.inj h
        rw [FilterStack.resetTo, ih (fun g hg => hf g (List.mem_cons_of_mem _ hg)) st1 h2]
        have : (f.resetTo v).resetTo v = f.resetTo v := by
          have := hf f (List.mem_cons_self ..) f.state v
          show ({ f with state := f.reset (f.reset f.state v) v } : Filter F) = { f with state := f.reset f.state v }
          rw [this]
        rw [this]
        rfl

/-! ## Concrete cases -/

/-- A controller with gains that are set twice, and whose limits cut off the output. -/
example (b : Build) : ∃ s s' : Pid Rat, s.setTunings b 2 1 0 true = .ok s' ∧ s ≠ s' ∧ (s'.setLimits 0 5).output = 5 ∧ s'.output = 7 := by
  refine ⟨⟨1, 1, 1, true, 0, 7, 0, 0, 0, 0, 100, 0, 10, true⟩, ⟨-2, -1 / 10, 0, true, 0, 7, 0, 0, 0, 0, 100, 0, 10, true⟩, ?_⟩
  cases b <;> decide +kernel

/-- A sampling time that is doubled. -/
example : (⟨1, 1, 1, true, 0, 7, 0, 0, 0, 0, 100, 0, 10, true⟩ : Pid Rat).setSampling 200 = .ok ⟨1, 2, 1 / 2, true, 0, 7, 0, 0, 0, 0, 200, 0, 10, true⟩ := by decide +kernel

/-- A text and a string with something to strip. -/
example (b : Build) : Text.lstrip [' ', 'a', ' '] [' '] = .ok ['a', ' '] ∧ (⟨[' ', 'a', ' '], 15⟩ : StaticString).rstrip b [' '] = .ok ⟨[' ', 'a'], 15⟩ ∧
    (⟨[' ', 'a', ' '], 15⟩ : StaticString).Valid :=
  ⟨rfl, by cases b <;> rfl, by unfold StaticString.Valid; decide⟩

/-- A fraction that can be simplified. -/
example : Compound.simplifyInt (6, 4) = .ok (3, 2) := by decide +kernel

/-- A fraction of numbers that are not integers. -/
example : Compound.simplify 10 ⟨6 / 10, 4 / 10⟩ = .ok ⟨3 / 10, 2 / 10⟩ := by decide +kernel

/-- A controller of floats. -/
example : ∃ s s' : Pid Fl, s.ki.Ok ∧ s.kd.Ok ∧ s.setSampling 300 = .ok s' ∧ s ≠ s' :=
  ⟨⟨Fl.ofRat 1, Fl.ofRat 1, Fl.ofRat 1, true, Fl.ofRat 0, Fl.ofRat 7, Fl.ofRat 0, 0, Fl.ofRat 0, Fl.ofRat 0, 100, Fl.ofRat 0, Fl.ofRat 10, true⟩,
    ⟨Fl.ofRat 1, Fl.ofRat 3, Fl.ofRat (1 / 3), true, Fl.ofRat 0, Fl.ofRat 7, Fl.ofRat 0, 0, Fl.ofRat 0, Fl.ofRat 0, 300, Fl.ofRat 0, Fl.ofRat 10, true⟩,
    Fl.ofRat_ok _, Fl.ofRat_ok _, by decide +kernel, by decide +kernel⟩

/-- An interrupt that is attached. -/
example (b : Build) : ∃ i ls, Interrupt.attach b mega (fun _ => none) (⟨2, .undefined, none⟩ : Interrupt Nat) (some 7) .rising = .ok (i, ls) ∧ ls 0 = some (some 7, 3) :=
  ⟨_, _, by simp [Interrupt.attach, mega]; exact ⟨rfl, rfl⟩, by simp [Interrupt.attachLine, mega, Interrupt.modeBits]⟩

/-- The exception of `C199_output` is needed. -/
example : ((DigitalOut.create false).call .flip).active = .on ∧ (((DigitalOut.create false).call .flip).call .flip).active = .off := by decide

end Spine

import Verif.Props.Pid
import Verif.Model.Filter
import Verif.Model.Latch
import Verif.Core.Bind
/-!
# C204: heating and cooling are mirror images
-/

namespace Spine

open F32

namespace Fl

/-- Specification: the same number, up to the sign of zero; all that are not numbers are the same. -/
def Alike : Fl → Fl → Prop
  | .nan, .nan => True
  | .inf s, .inf t => s = t
  | .num s m, .num t n => m = n ∧ (s = t ∨ m = 0)
  | _, _ => False

theorem alike_refl (x : Fl) : Alike x x := by cases x <;> simp [Alike]

theorem Alike.symm {x y : Fl} (h : Alike x y) : Alike y x := by
  cases x <;> cases y <;> simp_all [Alike]
  obtain ⟨h1, h2⟩ := h
  subst h1
  rcases h2 with h2 | h2
  · exact .inl h2.symm
  · exact .inr h2

theorem Alike.trans {x y z : Fl} (h : Alike x y) (h' : Alike y z) : Alike x z := by
  cases x <;> cases y <;> (try exact absurd h id) <;> cases z <;> (try exact absurd h' id) <;> (try trivial)
  · next s t u => obtain rfl : s = t := h; exact h'
  · next s m t n u k =>
    obtain ⟨rfl, h2⟩ := h
    obtain ⟨rfl, h4⟩ := h'
    rcases h2 with rfl | h2
    · exact ⟨rfl, h4⟩
    · exact ⟨rfl, .inr h2⟩

theorem Alike.val {x y : Fl} (h : Alike x y) : x.val = y.val := by
  cases x <;> cases y <;> simp_all [Alike, Fl.val]
  obtain ⟨rfl, h2⟩ := h
  rcases h2 with rfl | rfl
  · rfl
  · simp

theorem Alike.neg {x y : Fl} (h : Alike x y) : Alike x.neg y.neg := by
  cases x <;> cases y <;> (try exact absurd h id) <;> (try trivial)
  · next s t => obtain rfl : s = t := h; exact alike_refl _
  · next s m t n =>
    obtain ⟨rfl, h2⟩ := h
    rcases h2 with rfl | h2
    · exact alike_refl _
    · exact ⟨rfl, .inr h2⟩

theorem neg_twice (x : Fl) : x.neg.neg = x := by cases x <;> simp [Fl.neg]

theorem ofRat_opp {q : Rat} (h : q ≠ 0) : ofRat (-q) = (ofRat q).neg := by
  have e : decide (-q < 0) = !decide (q < 0) := by
    rcases lt_or_gt_of_ne h with h | h
    · simp [h, h.le, not_lt.mpr]
    · simp [h, h.le, not_lt.mpr]
  unfold ofRat round
  rw [abs_neg, e]
  split <;> rfl

theorem Alike.add {x y a c : Fl} (h : Alike x y) (h' : Alike a c) : Alike (Fl.add x a) (Fl.add y c) := by
  have v1 := h.val
  have v2 := h'.val
  cases x <;> cases y <;> (try exact absurd h id) <;> cases a <;> cases c <;> (try exact absurd h' id) <;> (try trivial)
  · next s t u w => obtain rfl : s = t := h; obtain rfl : u = w := h'; exact alike_refl _
  · next s m t n u k w l =>
    simp only [Fl.add, v1, v2]
    split
    · exact ⟨rfl, .inr rfl⟩
    · exact alike_refl _

theorem add_opp (x y : Fl) : Alike (Fl.add x.neg y.neg) (Fl.add x y).neg := by
  cases x <;> cases y <;> try trivial
  · next s t => cases s <;> cases t <;> trivial
  · next s m t n =>
    have e : (Fl.num (!s) m).val + (Fl.num (!t) n).val = -((Fl.num s m).val + (Fl.num t n).val) := by
      rw [show Fl.num (!s) m = (Fl.num s m).neg from rfl, show Fl.num (!t) n = (Fl.num t n).neg from rfl, (neg_val _).1, (neg_val _).1]; ring
    simp only [Fl.add, Fl.neg, e, neg_eq_zero]
    split
    · exact ⟨rfl, .inr rfl⟩
    · next h => rw [ofRat_opp h]; exact alike_refl _

theorem Alike.sub {x y a c : Fl} (h : Alike x y) (h' : Alike a c) : Alike (Fl.sub x a) (Fl.sub y c) := h.add h'.neg

theorem sub_opp (x y : Fl) : Alike (Fl.sub x.neg y.neg) (Fl.sub x y).neg := add_opp x y.neg

theorem round_nought (s : Bool) : round s 0 = .num s 0 := by
  have h : rnd 0 < pow2 128 := by decide +kernel
  unfold round
  rw [if_pos h, rnd_zero]

theorem Alike.mul {x y a c : Fl} (h : Alike x y) (h' : Alike a c) : Alike (Fl.mul x a) (Fl.mul y c) := by
  cases x <;> cases y <;> (try exact absurd h id) <;> cases a <;> cases c <;> (try exact absurd h' id) <;> (try trivial)
  · next s t u w => obtain rfl : s = t := h; obtain rfl : u = w := h'; exact alike_refl _
  · next s t u m w n =>
    obtain rfl : s = t := h
    obtain ⟨rfl, h2⟩ := h'
    rcases h2 with rfl | rfl
    · exact alike_refl _
    · trivial
  · next s m t n u w =>
    obtain rfl : u = w := h'
    obtain ⟨rfl, h2⟩ := h
    rcases h2 with rfl | rfl
    · exact alike_refl _
    · trivial
  · next s m t n u k w l =>
    obtain ⟨rfl, h2⟩ := h
    obtain ⟨rfl, h4⟩ := h'
    simp only [Fl.mul]
    rcases h2 with rfl | rfl
    · rcases h4 with rfl | rfl
      · exact alike_refl _
      · rw [mul_zero, round_nought, round_nought]; exact ⟨rfl, .inr rfl⟩
    · rw [zero_mul, round_nought, round_nought]; exact ⟨rfl, .inr rfl⟩

theorem round_opp (s : Bool) (q : Rat) : round (!s) q = (round s q).neg := by
  unfold round
  split <;> rfl

theorem mul_opp_left (x y : Fl) : Fl.mul x.neg y = (Fl.mul x y).neg := by
  cases x <;> cases y <;> try rfl
  · next s t => cases s <;> cases t <;> rfl
  · next s t n => simp only [Fl.mul, Fl.neg]; split <;> [rfl; (cases s <;> cases t <;> rfl)]
  · next s m t => simp only [Fl.mul, Fl.neg]; split <;> [rfl; (cases s <;> cases t <;> rfl)]
  · next s m t n =>
    have := round_opp (s != t) (m * n)
    cases s <;> cases t <;> exact this

theorem mul_opp_right (x y : Fl) : Fl.mul x y.neg = (Fl.mul x y).neg := by
  cases x <;> cases y <;> try rfl
  · next s t => cases s <;> cases t <;> rfl
  · next s t n => simp only [Fl.mul, Fl.neg]; split <;> [rfl; (cases s <;> cases t <;> rfl)]
  · next s m t => simp only [Fl.mul, Fl.neg]; split <;> [rfl; (cases s <;> cases t <;> rfl)]
  · next s m t n =>
    have := round_opp (s != t) (m * n)
    cases s <;> cases t <;> exact this

theorem mul_opp_both (x y : Fl) : Fl.mul x.neg y.neg = Fl.mul x y := by rw [mul_opp_left, mul_opp_right, neg_twice]

theorem div_opp (x y : Fl) : Fl.div x.neg y = (Fl.div x y).neg := by
  cases x <;> cases y <;> try rfl
  · next s t n => cases s <;> cases t <;> rfl
  · next s m t => cases s <;> cases t <;> rfl
  · next s m t n =>
    have e := round_opp (s != t) (m / n)
    by_cases hn : n = 0
    · by_cases hm : m = 0
      · simp [Fl.div, Fl.neg, hn, hm]
      · cases s <;> cases t <;> simp [Fl.div, Fl.neg, hn, hm]
    · have e1 : Fl.div (Fl.num s m).neg (Fl.num t n) = round ((!s) != t) (m / n) := by simp [Fl.div, Fl.neg, hn]
      have e2 : Fl.div (Fl.num s m) (Fl.num t n) = round (s != t) (m / n) := by simp [Fl.div, hn]
      rw [e1, e2, ← e]
      cases s <;> cases t <;> rfl

theorem Alike.div_left {x y : Fl} (h : Alike x y) (d : Fl) : Alike (Fl.div x d) (Fl.div y d) := by
  cases x <;> cases y <;> (try exact absurd h id)
  · exact alike_refl _
  · next s t => obtain rfl : s = t := h; exact alike_refl _
  · next s m t n =>
    obtain ⟨rfl, h2⟩ := h
    rcases h2 with rfl | rfl
    · exact alike_refl _
    · cases d with
      | nan => trivial
      | inf u => exact ⟨rfl, .inr rfl⟩
      | num u k =>
        simp only [Fl.div]
        split
        · trivial
        · rw [zero_div, round_nought, round_nought]; exact ⟨rfl, .inr rfl⟩

theorem Alike.lt {x y a c : Fl} (h : Alike x y) (h' : Alike a c) : Fl.lt x a = Fl.lt y c := by
  have v1 := h.val
  have v2 := h'.val
  cases x <;> cases y <;> (try exact absurd h id) <;> cases a <;> cases c <;> (try exact absurd h' id) <;> (try rfl)
  · next s t u w => obtain rfl : s = t := h; obtain rfl : u = w := h'; rfl
  · next s t u m w n => obtain rfl : s = t := h; rfl
  · next s m t n u w => obtain rfl : u = w := h'; rfl
  · simp only [Fl.lt, v1, v2]

theorem lt_opp (x y : Fl) : Fl.lt x.neg y.neg = Fl.lt y x := by
  cases x <;> cases y <;> try rfl
  · next s t => cases s <;> cases t <;> rfl
  · next s m t => cases t <;> rfl
  · next s m t n =>
    have e1 := (neg_val (Fl.num s m)).1
    have e2 := (neg_val (Fl.num t n)).1
    simp only [Fl.neg] at e1 e2
    simp only [Fl.lt, Fl.neg, e1, e2, neg_lt_neg_iff]

theorem Alike.clamp {x y : Fl} (h : Alike x y) {lo hi lo' hi' : Fl} (h1 : Alike lo lo') (h2 : Alike hi hi') : Alike (Pid.clamp lo hi x) (Pid.clamp lo' hi' y) := by
  unfold Pid.clamp
  rw [show (Arith.lt hi x : Bool) = Arith.lt hi' y from h2.lt h, show (Arith.lt x lo : Bool) = Arith.lt y lo' from h.lt h1]
  split
  · exact h2
  · split
    · exact h1
    · exact h

theorem fzero_alike : Alike (fzero : Fl) (fzero : Fl).neg := by
  have e : (fzero : Fl) = .num false 0 := by decide +kernel
  rw [e]; exact ⟨rfl, .inr rfl⟩

theorem zero_sub_alike {x : Fl} (h : x.Ok) : Alike (Fl.sub fzero x) x.neg := by
  have e : (fzero : Fl) = .num false 0 := by decide +kernel
  rw [e]
  cases x with
  | nan => trivial
  | inf s => exact alike_refl _
  | num s m =>
    obtain ⟨h1, h2, h3⟩ := h
    have h0 : (Fl.num false 0).val = 0 := by simp [Fl.val]
    simp only [Fl.sub, Fl.neg, Fl.add, h0, zero_add]
    rcases eq_or_lt_of_le h1 with rfl | hp
    · cases s <;> simp [Fl.val, Alike]
    · cases s
      · have : (Fl.num (!false) m).val = -m := by simp [Fl.val]
        rw [this, if_neg (by linarith), ofRat_opp (ne_of_gt hp)]
        have : ofRat m = .num false m := by
          unfold ofRat round
          rw [abs_of_pos hp, h2, if_pos h3, decide_eq_false (not_lt.mpr h1)]
        rw [this]; exact alike_refl _
      · have : (Fl.num (!true) m).val = m := by simp [Fl.val]
        rw [this, if_neg (by linarith)]
        have : ofRat m = .num false m := by
          unfold ofRat round
          rw [abs_of_pos hp, h2, if_pos h3, decide_eq_false (not_lt.mpr h1)]
        rw [this]; exact alike_refl _

end Fl

open Fl

namespace PID
open Pid

/-- Specification: two controllers are mirror images: they act in opposite directions, with readings and setpoints of opposite sign; the responses are the same. -/
structure Mirror (s t : Pid Fl) : Prop where
  kp : Alike t.kp s.kp.neg
  ki : Alike t.ki s.ki.neg
  kd : Alike t.kd s.kd.neg
  reverse : t.reverse = !s.reverse
  input : Alike t.input s.input.neg
  setpoint : Alike t.setpoint s.setpoint.neg
  last : Alike t.lastReading s.lastReading.neg
  output : Alike t.output s.output
  sum : Alike t.cumulative s.cumulative
  lo : Alike t.lo s.lo
  hi : Alike t.hi s.hi
  time : t.lastTime = s.lastTime
  sampling : t.sampling = s.sampling
  mode : t.onMeasurement = s.onMeasurement

/-- Specification: both calls end in the same way, with mirror images if they return. -/
def Mirrored : Res (Pid Fl) → Res (Pid Fl) → Prop
  | .ok s, .ok t => Mirror s t
  | .error e, .error e' => e = e'
  | _, _ => False

theorem Mirrored.same {α : Type} (x : Res α) {f g : α → Res (Pid Fl)} (h : ∀ a, Mirrored (f a) (g a)) : Mirrored (x >>= f) (x >>= g) := by
  cases x with
  | error e => exact rfl
  | ok a => exact h a

theorem Mirrored.bind {x y : Res (Pid Fl)} (h : Mirrored x y) {f g : Pid Fl → Res (Pid Fl)} (hf : ∀ s t, Mirror s t → Mirrored (f s) (g t)) : Mirrored (x >>= f) (y >>= g) := by
  cases x <;> cases y
  · exact h
  · exact absurd h id
  · exact absurd h id
  · exact hf _ _ h

theorem Mirror.compute {s t : Pid Fl} (h : Mirror s t) (now : Int) : Mirror (s.compute now) (t.compute now) := by
  have er : Alike (Fl.sub t.setpoint t.input) (Fl.sub s.setpoint s.input).neg := (h.setpoint.sub h.input).trans (sub_opp _ _)
  have di : Alike (Fl.sub t.input t.lastReading) (Fl.sub s.input s.lastReading).neg := (h.input.sub h.last).trans (sub_opp _ _)
  have pr : ∀ {k k' e e' : Fl}, Alike k' k.neg → Alike e' e.neg → Alike (Fl.mul k' e') (Fl.mul k e) := by
    intro k k' e e' h1 h2
    have := h1.mul h2
    rwa [mul_opp_both] at this
  have c1 := h.sum.add (pr h.ki er)
  have c : Alike (t.compute now).cumulative (s.compute now).cumulative := by
    simp only [Pid.compute, h.mode]
    cases s.onMeasurement with
    | true => exact (c1.sub (pr h.kp di)).clamp h.lo h.hi
    | false => exact c1.clamp h.lo h.hi
  have o : Alike (t.compute now).output (s.compute now).output := by
    have : Alike (if t.onMeasurement then fzero else Fl.mul t.kp (Fl.sub t.setpoint t.input)) (if s.onMeasurement then fzero else Fl.mul s.kp (Fl.sub s.setpoint s.input)) := by
      rw [h.mode]
      cases s.onMeasurement with
      | true => exact alike_refl _
      | false => exact pr h.kp er
    exact (this.add (c.sub (pr h.kd di))).clamp h.lo h.hi
  exact ⟨h.kp, h.ki, h.kd, h.reverse, h.input, h.setpoint, h.input, o, c, h.lo, h.hi, rfl, h.sampling, h.mode⟩

theorem Mirror.reading {s t : Pid Fl} (h : Mirror s t) {v w : Fl} (hv : Alike w v.neg) (now : Int) :
    Mirrored (do return (← newReading s v now).2) (do return (← newReading t w now).2) := by
  unfold newReading update
  simp only [h.time, h.sampling, bind_assoc]
  refine Mirrored.same _ fun a => Mirrored.same _ fun c => ?_
  simp only [res_pure]
  have h' : Mirror { s with input := v } { t with input := w, lastTime := s.lastTime, sampling := s.sampling } :=
    ⟨h.kp, h.ki, h.kd, h.reverse, hv, h.setpoint, h.last, h.output, h.sum, h.lo, h.hi, rfl, rfl, h.mode⟩
  cases c with
  | true => exact h'.compute now
  | false => exact h'

theorem Mirror.tunings {s t : Pid Fl} (h : Mirror s t) (b : Build) {kp ki kd : Fl} (ok : kp.Ok ∧ ki.Ok ∧ kd.Ok) (m : Bool) :
    Mirrored (s.setTunings b kp ki kd m) (t.setTunings b kp ki kd m) := by
  unfold setTunings
  simp only [h.sampling]
  refine Mirrored.same _ fun _ => Mirrored.same _ fun c => Mirrored.same _ fun _ => ?_
  have ds : (Fl.div (Fl.ofRat s.sampling) (Fl.ofRat 1000)).Ok := Fl.div_ok (Fl.ofRat_ok _) (Fl.ofRat_ok _)
  have z1 := zero_sub_alike ok.1
  have z2 := zero_sub_alike (Fl.mul_ok ok.2.1 ds)
  have z3 := zero_sub_alike (Fl.div_ok ok.2.2 ds)
  have back : ∀ {x : Fl}, Alike (Fl.sub fzero x) x.neg → Alike x (Fl.sub fzero x).neg := by
    intro x hx
    have := hx.neg
    rw [neg_twice] at this
    exact this.symm
  simp only [h.reverse]
  cases hr : s.reverse with
  | false =>
    exact ⟨z1, z2, z3, by simp [negate, hr, h.reverse], h.input, h.setpoint, h.last, h.output, h.sum, h.lo, h.hi, h.time, rfl, rfl⟩
  | true =>
    exact ⟨back z1, back z2, back z3, by simp [negate, hr, h.reverse], h.input, h.setpoint, h.last, h.output, h.sum, h.lo, h.hi, h.time, rfl, rfl⟩

theorem Mirror.limits {s t : Pid Fl} (h : Mirror s t) (lo hi : Fl) : Mirror (s.setLimits lo hi) (t.setLimits lo hi) := by
  unfold setLimits
  split
  · exact h
  · exact ⟨h.kp, h.ki, h.kd, h.reverse, h.input, h.setpoint, h.last, h.output.clamp (alike_refl _) (alike_refl _), h.sum.clamp (alike_refl _) (alike_refl _), alike_refl _, alike_refl _,
      h.time, h.sampling, h.mode⟩

theorem Mirror.newSampling {s t : Pid Fl} (h : Mirror s t) (p : Int) : Mirrored (s.setSampling p) (t.setSampling p) := by
  unfold setSampling
  simp only [h.sampling]
  refine Mirrored.same _ fun c => ?_
  cases c with
  | false => exact h
  | true =>
    simp only [if_true]
    split
    · exact rfl
    · refine ⟨h.kp, ?_, ?_, h.reverse, h.input, h.setpoint, h.last, h.output, h.sum, h.lo, h.hi, h.time, rfl, h.mode⟩
      · exact (h.ki.mul (alike_refl _)).trans (by rw [mul_opp_left]; exact alike_refl _)
      · exact (h.kd.div_left _).trans (by rw [div_opp]; exact alike_refl _)

theorem Mirror.initialize {s t : Pid Fl} (h : Mirror s t) (cfg : PidConfig Fl) : Mirrored (PID.start cfg s) (PID.start { cfg with reverse := !cfg.reverse } t) := by
  unfold PID.start
  refine Mirrored.bind ((h.limits _ _).newSampling _) fun s t h => ?_
  exact ⟨h.kp, h.ki, h.kd, h.reverse, h.input, h.setpoint, h.input, h.output, h.output.clamp h.lo h.hi, h.lo, h.hi, h.time, h.sampling, h.mode⟩

/-- Specification: the same use with the signs of readings and setpoints changed. -/
def Op.mirror : Op Fl → Op Fl
  | .start => .start
  | .reading v now => .reading v.neg now
  | .setpoint v => .setpoint v.neg
  | .tunings kp ki kd m => .tunings kp ki kd m

/-- Specification: the gains given are single precision floats. -/
def Op.Floats : Op Fl → Prop
  | .tunings kp ki kd _ => kp.Ok ∧ ki.Ok ∧ kd.Ok
  | _ => True

/-- **C204.** Mirror images stay mirror images, whatever is done with both of them. -/
theorem C204_pid {cfg : PidConfig Fl} {b : Build} (ops : List (Op Fl)) : ∀ {s t : Pid Fl}, Mirror s t → (∀ op ∈ ops, op.Floats) →
    Mirrored (run cfg b s ops) (run { cfg with reverse := !cfg.reverse } b t (ops.map Op.mirror)) := by
  induction ops with
  | nil => intro s t h _; exact h
  | cons op ops ih =>
    intro s t h hf
    refine Mirrored.bind ?_ fun s t h => ih h (fun op hop => hf op (by simp [hop]))
    have h1 := hf op (by simp)
    cases op with
    | start => exact h.initialize cfg
    | reading v now => exact h.reading (alike_refl _) now
    | setpoint v => exact ⟨h.kp, h.ki, h.kd, h.reverse, h.input, alike_refl _, h.last, h.output, h.sum, h.lo, h.hi, h.time, h.sampling, h.mode⟩
    | tunings kp ki kd m => exact h.tunings b h1 m

/-- **C204.** A controller and one that is constructed for the other direction are mirror images from the start. -/
theorem C204_created {cfg : PidConfig Fl} (ok : cfg.kp.Ok ∧ cfg.ki.Ok ∧ cfg.kd.Ok) (b : Build) (now : Int) : Mirrored (create cfg b now) (create { cfg with reverse := !cfg.reverse } b now) := by
  have z := fzero_alike
  have zz : Alike (Fl.sub (fzero : Fl) fzero) fzero ∧ Alike (Fl.sub (fzero : Fl) fzero) (fzero : Fl).neg ∧ Alike (fzero : Fl) (Fl.sub (fzero : Fl) fzero).neg := by
    have e : (fzero : Fl) = .num false 0 := by decide +kernel
    have e' : Fl.sub (.num false 0) (.num false 0) = .num false 0 := by decide +kernel
    rw [e, e']; exact ⟨alike_refl _, ⟨rfl, .inr rfl⟩, ⟨rfl, .inr rfl⟩⟩
  have hd : ∀ s : Pid Fl, s = { kp := fzero, ki := fzero, kd := fzero, reverse := false, input := fzero, output := fzero, setpoint := fzero, lastTime := 0, cumulative := fzero, lastReading := fzero, sampling := 100, lo := fzero, hi := Arith.ofRat 255, onMeasurement := true } → Mirror (s.setDirection cfg.reverse) (s.setDirection !cfg.reverse) := by
    rintro s rfl
    cases cfg.reverse with
    | false => exact ⟨zz.2.1, zz.2.1, zz.2.1, rfl, z, z, z, alike_refl _, alike_refl _, alike_refl _, alike_refl _, rfl, rfl, rfl⟩
    | true => exact ⟨zz.2.2, zz.2.2, zz.2.2, rfl, z, z, z, alike_refl _, alike_refl _, alike_refl _, alike_refl _, rfl, rfl, rfl⟩
  unfold create Pid.create
  simp only [bind_assoc]
  refine Mirrored.bind ((hd _ rfl).tunings b ok true) fun s t h => ?_
  rw [h.sampling]
  refine Mirrored.same _ fun l => ?_
  simp only [res_pure, res_bind_ok]
  refine Mirrored.same _ fun _ => ?_
  exact ⟨h.kp, h.ki, h.kd, h.reverse, h.input, h.setpoint, h.last, h.output, h.sum, h.lo, h.hi, rfl, rfl, h.mode⟩

/-- **C204.** The responses of a controller that heats and of one that cools, given signals of opposite sign, are the same after any use: both programs end in the same way,
and the outputs are the same floats, up to the sign of a zero. -/
theorem C204_responses {cfg : PidConfig Fl} (ok : cfg.kp.Ok ∧ cfg.ki.Ok ∧ cfg.kd.Ok) (b : Build) (now : Int) (ops : List (Op Fl)) (hf : ∀ op ∈ ops, op.Floats) :
    Mirrored (do run cfg b (← create cfg b now) ops) (do run { cfg with reverse := !cfg.reverse } b (← create { cfg with reverse := !cfg.reverse } b now) (ops.map Op.mirror)) :=
  (C204_created ok b now).bind fun _ _ h => C204_pid ops h hf

end PID

namespace Ewma

/-- **C204.** An average of signals of opposite sign has the opposite sign, after every sample, whatever the samples are. -/
theorem C204_average (k : Fl) (xs : List Fl) : ∀ (s t : Ewma Fl), t.n = s.n → Alike t.value s.value.neg →
    (samples k t (xs.map Fl.neg)).n = (samples k s xs).n ∧ Alike (samples k t (xs.map Fl.neg)).value (samples k s xs).value.neg := by
  induction xs with
  | nil => intro s t h1 h2; exact ⟨h1, h2⟩
  | cons x xs ih =>
    intro s t h1 h2
    refine ih (sample k s x) (sample k t x.neg) ?_ ?_
    · unfold sample; rw [h1]; split <;> rfl
    · unfold sample
      rw [h1]
      split
      · exact alike_refl _
      · refine (h2.add (Alike.div_left (((alike_refl x.neg).sub h2).trans (sub_opp _ _)) _)).trans ?_
        exact (by rw [div_opp]; exact add_opp _ _)

end Ewma

namespace Latch

/-- Specification: the latch for the signal of opposite sign. -/
def mirrorCfg (c : LatchConfig Fl) : LatchConfig Fl := { high := c.low.neg, low := c.high.neg, minOn := c.minOff, maxOn := c.maxOff, minOff := c.minOn, maxOff := c.maxOn }

theorem ordered {lo hi : Fl} (h : Fl.le lo hi = true) (v : Fl) : ¬ (Fl.lt hi v = true ∧ Fl.lt v lo = true) := by
  rintro ⟨h1, h2⟩
  cases lo <;> cases hi <;> cases v <;> simp_all [Fl.le, Fl.lt]
  linarith

/-- **C204.** A latch with thresholds and signal of opposite sign, its times exchanged, is off where the other is on, and turns at the same time. The thresholds must be in order. -/
theorem C204_latch {c : LatchConfig Fl} {l l1 l' l1' : Latch} (hc : Fl.le c.low c.high = true) (h : l' = ⟨!l.on, l.turned⟩) {now : Int} {v : Fl}
    (h1 : newReading c l now v = .ok l1) (h2 : newReading (mirrorCfg c) l' now v.neg = .ok l1') : l1' = ⟨!l1.on, l1.turned⟩ := by
  subst h
  obtain ⟨on, tm⟩ := l
  have hs : (⟨!on, tm⟩ : Latch).since now = (⟨on, tm⟩ : Latch).since now := rfl
  have e1 : (Arith.lt (mirrorCfg c).high v.neg : Bool) = Arith.lt v c.low := lt_opp _ _
  have e2 : (Arith.lt v.neg (mirrorCfg c).low : Bool) = Arith.lt c.high v := lt_opp _ _
  have h3 := ordered hc v
  unfold newReading at h1 h2
  rw [e1, e2, hs] at h2
  simp only [mirrorCfg] at h2
  clear e1 e2 hs
  change ¬ ((Arith.lt c.high v : Bool) = true ∧ (Arith.lt v c.low : Bool) = true) at h3
  generalize (Latch.since ⟨on, tm⟩ now) = S at h1 h2
  generalize KTime.ne .milli .milli c.maxOn 0 = N at h1 h2
  generalize KTime.ne .milli .milli c.maxOff 0 = N' at h1 h2
  generalize (Arith.lt c.high v : Bool) = H at h1 h2 h3
  generalize (Arith.lt v c.low : Bool) = L at h1 h2 h3
  cases S with
  | error e => cases on <;> cases h1
  | ok x =>
    simp only [res_bind_ok] at h1 h2
    generalize KTime.lt .milli .milli x c.minOn = A at h1 h2
    generalize KTime.lt .milli .milli x c.minOff = B at h1 h2
    generalize msGt x c.maxOn = C at h1 h2
    generalize msGt x c.maxOff = D at h1 h2
    have fin : ∀ {a : Bool}, (if H = true then (Except.ok (set true now) : Res Latch) else if L = true then .ok (set false now) else .ok ⟨a, tm⟩) = .ok l1 →
        (if L = true then (Except.ok (set true now) : Res Latch) else if H = true then .ok (set false now) else .ok ⟨!a, tm⟩) = .ok l1' → l1' = ⟨!l1.on, l1.turned⟩ := by
      intro a g1 g2
      cases H <;> cases L <;> simp at h3 g1 g2 <;> subst g1 g2 <;> rfl
    cases on with
    | true =>
      cases A with
      | error e => cases h1
      | ok p =>
        cases p with
        | true => obtain rfl := Except.ok.inj h1; obtain rfl := Except.ok.inj h2; rfl
        | false =>
          cases N with
          | error e => cases h1
          | ok n =>
            cases N' with
            | error e => cases h2
            | ok n' =>
              cases n with
              | false => cases n' <;> exact fin h1 h2
              | true =>
                cases C with
                | error e => cases h1
                | ok q =>
                  cases q with
                  | true => obtain rfl := Except.ok.inj h1; cases n' <;> (obtain rfl := Except.ok.inj h2; rfl)
                  | false => cases n' <;> exact fin h1 h2
    | false =>
      cases B with
      | error e => cases h1
      | ok p =>
        cases p with
        | true => obtain rfl := Except.ok.inj h1; obtain rfl := Except.ok.inj h2; rfl
        | false =>
          cases N with
          | error e => cases h1
          | ok n =>
            cases N' with
            | error e => cases n <;> cases h1
            | ok n' =>
              cases n' with
              | false => cases n <;> exact fin h1 h2
              | true =>
                cases D with
                | error e => cases n <;> cases h1
                | ok q =>
                  cases q with
                  | true => cases n <;> (obtain rfl := Except.ok.inj h1; obtain rfl := Except.ok.inj h2; rfl)
                  | false => cases n <;> exact fin h1 h2

/-- **C204.** The same for any series of readings: the responses are opposite after every reading. -/
theorem C204_latch_run {c : LatchConfig Fl} (hc : Fl.le c.low c.high = true) (rs : List (Int × Fl)) : ∀ {l l1 l' l1' : Latch} {bs bs' : List Bool}, l' = ⟨!l.on, l.turned⟩ →
    run c l rs = .ok (bs, l1) → run (mirrorCfg c) l' (rs.map fun r => (r.1, r.2.neg)) = .ok (bs', l1') → bs' = bs.map (!·) ∧ l1' = ⟨!l1.on, l1.turned⟩ := by
  induction rs with
  | nil =>
    intro l l1 l' l1' bs bs' h h1 h2
    obtain ⟨rfl, rfl⟩ := Prod.mk.inj (Except.ok.inj h1)
    obtain ⟨rfl, rfl⟩ := Prod.mk.inj (Except.ok.inj h2)
    exact ⟨rfl, h⟩
  | cons r rs ih =>
    intro l l1 l' l1' bs bs' h h1 h2
    obtain ⟨m, e1, h1⟩ := res_bind h1
    obtain ⟨⟨cs, m2⟩, e2, h1⟩ := res_bind h1
    obtain ⟨m', e1', h2⟩ := res_bind h2
    obtain ⟨⟨cs', m2'⟩, e2', h2⟩ := res_bind h2
    have hm := C204_latch hc h e1 e1'
    obtain ⟨a1, a2⟩ := ih hm e2 e2'
    obtain ⟨rfl, rfl⟩ := Prod.mk.inj (Except.ok.inj h1)
    obtain ⟨rfl, rfl⟩ := Prod.mk.inj (Except.ok.inj h2)
    exact ⟨by rw [a1, hm]; rfl, a2⟩

end Latch

/-! ## Concrete cases -/

/-- A controller that heats up to 20 and one that cools down to -20, after some readings; the first computations are at the limit, the last ones are not. -/
example :
    (do let c : PidConfig Fl := { PidConfig.default with kp := Fl.ofRat 1, ki := Fl.ofRat (3 / 10), kd := Fl.ofRat (1 / 10) }
        let s ← PID.run c .debug (← PID.create c .debug 0) [.start, .setpoint (Fl.ofRat 20), .reading (Fl.ofRat 5) 100, .reading (Fl.ofRat (49 / 10)) 200, .reading (Fl.ofRat 4) 300]
        let d := { c with reverse := true }
        let t ← PID.run d .debug (← PID.create d .debug 0)
          [.start, .setpoint (Fl.ofRat (-20)), .reading (Fl.ofRat (-5)) 100, .reading (Fl.ofRat (-49 / 10)) 200, .reading (Fl.ofRat (-4)) 300]
        return decide (s.output = t.output ∧ s.output ≠ fzero ∧ t.kp = Fl.ofRat (-1)) : Res Bool) = .ok true := by decide +kernel

example : (Fl.ofRat (3 / 10)).Ok ∧ (PID.Op.tunings (Fl.ofRat 1) (Fl.ofRat 2) (Fl.ofRat 3) true).Floats := ⟨Fl.ofRat_ok _, Fl.ofRat_ok _, Fl.ofRat_ok _, Fl.ofRat_ok _⟩

/-- Averages of opposite signals. -/
example : (Ewma.samples (Fl.ofRat 4) Ewma.create [Fl.ofRat 3, Fl.ofRat 4, Fl.ofRat (1 / 10)]).value =
    (Ewma.samples (Fl.ofRat 4) Ewma.create [Fl.ofRat (-3), Fl.ofRat (-4), Fl.ofRat (-1 / 10)]).value.neg := by decide +kernel

example : Fl.le (Fl.ofRat 3) (Fl.ofRat 5) = true := by decide +kernel

/-- Why the thresholds must be in order: with 5 and 3 exchanged, both latches turn on at 4 and -4. -/
example :
    (do let c : LatchConfig Fl := { high := Fl.ofRat 3, low := Fl.ofRat 5 }
        let l ← Latch.newReading c ⟨false, Timer.create 0⟩ 100 (Fl.ofRat 4)
        let m ← Latch.newReading (Latch.mirrorCfg c) ⟨true, Timer.create 0⟩ 100 (Fl.ofRat (-4))
        return (l.on, m.on) : Res (Bool × Bool)) = .ok (true, true) := by decide +kernel

/-- A latch that turns on above 5 and off below 3; its mirror image turns off below -5 and on above -3. -/
example :
    (do let c : LatchConfig Fl := { high := Fl.ofRat 5, low := Fl.ofRat 3 }
        let l ← Latch.newReading c ⟨false, Timer.create 0⟩ 100 (Fl.ofRat 6)
        let m ← Latch.newReading (Latch.mirrorCfg c) ⟨true, Timer.create 0⟩ 100 (Fl.ofRat (-6))
        return (l.on, m.on) : Res (Bool × Bool)) = .ok (true, false) := by decide +kernel

end Spine

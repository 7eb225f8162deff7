import Verif.Props.Mirror
/-!
# C206: the sign of a zero makes no difference
-/

namespace Spine

open Fl

/-- Specification: both calls end in the same way, with results that are related if they return. -/
def ResLike {α β : Type u} (R : α → β → Prop) : Res α → Res β → Prop
  | .ok a, .ok b => R a b
  | .error e, .error e' => e = e'
  | _, _ => False

theorem ResLike.same {α β γ : Type u} {R : α → β → Prop} (x : Res γ) {f : γ → Res α} {g : γ → Res β} (h : ∀ a, ResLike R (f a) (g a)) : ResLike R (x >>= f) (x >>= g) := by
  cases x with
  | error e => exact rfl
  | ok a => exact h a

theorem ResLike.bind {α β γ δ : Type u} {R : α → β → Prop} {S : γ → δ → Prop} {x : Res α} {y : Res β} (h : ResLike R x y) {f : α → Res γ} {g : β → Res δ}
    (hf : ∀ a b, R a b → ResLike S (f a) (g b)) : ResLike S (x >>= f) (y >>= g) := by
  cases x <;> cases y
  · exact h
  · exact absurd h id
  · exact absurd h id
  · exact hf _ _ h

theorem Fl.Alike.le {x y a c : Fl} (h : Alike x y) (h' : Alike a c) : Fl.le x a = Fl.le y c := by
  have v1 := h.val
  have v2 := h'.val
  cases x <;> cases y <;> (try exact absurd h id) <;> cases a <;> cases c <;> (try exact absurd h' id) <;> (try rfl)
  · next s t u w => obtain rfl : s = t := h; obtain rfl : u = w := h'; rfl
  · next s t u m w n => obtain rfl : s = t := h; rfl
  · next s m t n u w => obtain rfl : u = w := h'; rfl
  · simp only [Fl.le, v1, v2]

/-! ## PID -/

namespace PID
open Pid

/-- Specification: the same controller, up to signs of zeros. -/
structure Twin (s t : Pid Fl) : Prop where
  kp : Alike s.kp t.kp
  ki : Alike s.ki t.ki
  kd : Alike s.kd t.kd
  reverse : s.reverse = t.reverse
  input : Alike s.input t.input
  setpoint : Alike s.setpoint t.setpoint
  last : Alike s.lastReading t.lastReading
  output : Alike s.output t.output
  sum : Alike s.cumulative t.cumulative
  lo : Alike s.lo t.lo
  hi : Alike s.hi t.hi
  time : s.lastTime = t.lastTime
  sampling : s.sampling = t.sampling
  mode : s.onMeasurement = t.onMeasurement

theorem twin_refl (s : Pid Fl) : Twin s s := by constructor <;> first | rfl | exact alike_refl _

/-- Specification: the same call, up to signs of zeros. -/
def Op.Like : Op Fl → Op Fl → Prop
  | .start, .start => True
  | .reading v t, .reading w t' => Alike v w ∧ t = t'
  | .setpoint v, .setpoint w => Alike v w
  | .tunings a c d m, .tunings a' c' d' m' => Alike a a' ∧ Alike c c' ∧ Alike d d' ∧ m = m'
  | _, _ => False

theorem Twin.compute {s t : Pid Fl} (h : Twin s t) (now : Int) : Twin (s.compute now) (t.compute now) := by
  have er := h.setpoint.sub h.input
  have di := h.input.sub h.last
  have c1 := h.sum.add (h.ki.mul er)
  have c : Alike (s.compute now).cumulative (t.compute now).cumulative := by
    simp only [Pid.compute, h.mode]
    cases t.onMeasurement with
    | true => exact (c1.sub (h.kp.mul di)).clamp h.lo h.hi
    | false => exact c1.clamp h.lo h.hi
  have o : Alike (s.compute now).output (t.compute now).output := by
    have : Alike (if s.onMeasurement then fzero else Fl.mul s.kp (Fl.sub s.setpoint s.input)) (if t.onMeasurement then fzero else Fl.mul t.kp (Fl.sub t.setpoint t.input)) := by
      rw [h.mode]
      cases t.onMeasurement with
      | true => exact alike_refl _
      | false => exact h.kp.mul er
    exact (this.add (c.sub (h.kd.mul di))).clamp h.lo h.hi
  exact ⟨h.kp, h.ki, h.kd, h.reverse, h.input, h.setpoint, h.input, o, c, h.lo, h.hi, rfl, h.sampling, h.mode⟩

theorem Twin.limits {s t : Pid Fl} (h : Twin s t) (lo hi : Fl) : Twin (s.setLimits lo hi) (t.setLimits lo hi) := by
  unfold setLimits
  split
  · exact h
  · exact ⟨h.kp, h.ki, h.kd, h.reverse, h.input, h.setpoint, h.last, h.output.clamp (alike_refl _) (alike_refl _), h.sum.clamp (alike_refl _) (alike_refl _), alike_refl _, alike_refl _,
      h.time, h.sampling, h.mode⟩

theorem Twin.exec {s t : Pid Fl} (h : Twin s t) (cfg : PidConfig Fl) (b : Build) {op op' : Op Fl} (ho : op.Like op') : ResLike Twin (exec cfg b s op) (exec cfg b t op') := by
  cases op <;> cases op' <;> try exact absurd ho id
  · -- start
    refine ResLike.bind (R := Twin) ?_ fun s t h => ?_
    · have h := h.limits cfg.lower cfg.upper
      unfold setSampling
      simp only [h.sampling]
      refine ResLike.same _ fun c => ?_
      cases c with
      | false => exact h
      | true =>
        simp only [if_true]
        split
        · exact rfl
        · exact ⟨h.kp, h.ki.mul (alike_refl _), h.kd.div_left _, h.reverse, h.input, h.setpoint, h.last, h.output, h.sum, h.lo, h.hi, h.time, rfl, h.mode⟩
    · exact ⟨h.kp, h.ki, h.kd, h.reverse, h.input, h.setpoint, h.input, h.output, h.output.clamp h.lo h.hi, h.lo, h.hi, h.time, h.sampling, h.mode⟩
  · -- reading
    next v now w now' =>
    obtain ⟨hv, rfl⟩ := ho
    unfold PID.exec newReading update
    simp only [h.time, h.sampling, bind_assoc]
    refine ResLike.same _ fun a => ResLike.same _ fun c => ?_
    have h' : Twin { s with input := v, lastTime := t.lastTime, sampling := t.sampling } { t with input := w } :=
      ⟨h.kp, h.ki, h.kd, h.reverse, hv, h.setpoint, h.last, h.output, h.sum, h.lo, h.hi, rfl, rfl, h.mode⟩
    cases c with
    | true => exact h'.compute now
    | false => exact h'
  · exact ⟨h.kp, h.ki, h.kd, h.reverse, h.input, ho, h.last, h.output, h.sum, h.lo, h.hi, h.time, h.sampling, h.mode⟩
  · -- tunings
    next a c d m a' c' d' m' =>
    obtain ⟨h1, h2, h3, rfl⟩ := ho
    unfold PID.exec setTunings
    simp only [h.sampling]
    have l1 : (Arith.le fzero a : Bool) = Arith.le fzero a' := (alike_refl _).le h1
    have l2 : (Arith.le fzero c : Bool) = Arith.le fzero c' := (alike_refl _).le h2
    have l3 : (Arith.le fzero d : Bool) = Arith.le fzero d' := (alike_refl _).le h3
    rw [l1, l2, l3]
    refine ResLike.same _ fun _ => ResLike.same _ fun _ => ResLike.same _ fun _ => ?_
    simp only [h.reverse]
    have k2 := h2.mul (alike_refl (Fl.div (Fl.ofRat t.sampling) (Fl.ofRat 1000)))
    have k3 := h3.div_left (Fl.div (Fl.ofRat t.sampling) (Fl.ofRat 1000))
    cases t.reverse with
    | false => exact ⟨h1, k2, k3, rfl, h.input, h.setpoint, h.last, h.output, h.sum, h.lo, h.hi, h.time, rfl, rfl⟩
    | true =>
      exact ⟨(alike_refl _).sub h1, (alike_refl _).sub k2, (alike_refl _).sub k3, rfl, h.input, h.setpoint, h.last, h.output, h.sum, h.lo, h.hi, h.time, rfl, rfl⟩

/-- **C206.** A controller that is given `-0` where another one is given `0`, as a reading, a setpoint or a gain, computes when the other one does, fails when it fails, and gives the
same responses. -/
theorem C206_pid {cfg : PidConfig Fl} {b : Build} {ops ops' : List (Op Fl)} (ho : List.Forall₂ Op.Like ops ops') : ∀ {s t : Pid Fl}, Twin s t →
    ResLike Twin (run cfg b s ops) (run cfg b t ops') := by
  induction ho with
  | nil => intro s t h; exact h
  | cons h1 _ ih => intro s t h; exact ResLike.bind (h.exec cfg b h1) fun _ _ h => ih h

end PID

/-! ## Latch -/

namespace Latch

/-- **C206.** A latch does not distinguish the zeros at all. -/
theorem C206_latch {c : LatchConfig Fl} {rs rs' : List (Int × Fl)} (hr : List.Forall₂ (fun r r' => r.1 = r'.1 ∧ Alike r.2 r'.2) rs rs') : ∀ l : Latch, run c l rs = run c l rs' := by
  induction hr with
  | nil => intro l; rfl
  | @cons r r' rs rs' h _ ih =>
    intro l
    obtain ⟨n, v⟩ := r
    obtain ⟨n', v'⟩ := r'
    obtain ⟨rfl, h⟩ := h
    have e : newReading c l n v = newReading c l n v' := by
      unfold newReading
      rw [show (Arith.lt c.high v : Bool) = Arith.lt c.high v' from (alike_refl _).lt h, show (Arith.lt v c.low : Bool) = Arith.lt v' c.low from h.lt (alike_refl _)]
    simp only [run, e]
    cases newReading c l n v' with
    | error e => rfl
    | ok m => simp only [res_bind_ok, ih m]

end Latch

/-! ## Filters -/

/-- Specification: the same result of a filter, up to the sign of a zero. -/
def SameOut : Option Fl → Option Fl → Prop
  | none, none => True
  | some x, some y => Alike x y
  | _, _ => False

namespace Filter

/-- Specification: whatever they are given from now on, up to signs of zeros, both filters return the same, up to signs of zeros. -/
def Twin (f g : Filter Fl) : Prop := ∃ R : f.State → g.State → Prop, R f.state g.state ∧
  (∀ a c x y, R a c → Alike x y → ResLike (fun (p : f.State × Option Fl) (q : g.State × Option Fl) => R p.1 q.1 ∧ SameOut p.2 q.2) (f.step a x) (g.step c y)) ∧
  (∀ a c, R a c → Alike (f.current a) (g.current c)) ∧ ∀ a c v w, R a c → Alike v w → R (f.reset a v) (g.reset c w)

theorem Twin.take {f g : Filter Fl} (h : Twin f g) {x y : Fl} (hx : Alike x y) : ResLike (fun (p q : Filter Fl × Option Fl) => Twin p.1 q.1 ∧ SameOut p.2 q.2) (f.take x) (g.take y) := by
  obtain ⟨R, h0, h1, h2, h3⟩ := h
  have := h1 _ _ _ _ h0 hx
  unfold Filter.take
  cases e1 : f.step f.state x <;> cases e2 : g.step g.state y <;> rw [e1, e2] at this
  · exact this
  · exact absurd this id
  · exact absurd this id
  · exact ⟨⟨R, this.1, h1, h2, h3⟩, this.2⟩

/-- **C206.** What a filter shows is the same, up to the sign of a zero, also after a reset. -/
theorem C206_value {f g : Filter Fl} (h : Twin f g) : Alike f.value g.value ∧ ∀ {v w}, Alike v w → Twin (f.resetTo v) (g.resetTo w) := by
  obtain ⟨R, h0, h1, h2, h3⟩ := h
  exact ⟨h2 _ _ h0, fun hv => ⟨R, h3 _ _ _ _ h0 hv, h1, h2, h3⟩⟩

theorem fmin_alike {a c d e : Fl} (h : Alike a c) (h' : Alike d e) : Alike (fmin a d) (fmin c e) := by
  unfold fmin
  rw [show (Arith.lt d a : Bool) = Arith.lt e c from h'.lt h]
  split
  · exact h'
  · exact h

/-- **C206.** An average. -/
theorem C206_ewma (k : Fl) : Twin (ewma k) (ewma k) := by
  refine ⟨fun a c => a.n = c.n ∧ Alike a.value c.value, ⟨rfl, alike_refl _⟩, ?_, fun a c h => h.2, fun a c v w _ hv => ⟨rfl, hv⟩⟩
  rintro a c x y ⟨h1, h2⟩ hx
  have : (Ewma.sample k a x).n = (Ewma.sample k c y).n ∧ Alike (Ewma.sample k a x).value (Ewma.sample k c y).value := by
    unfold Ewma.sample
    rw [h1]
    split
    · exact ⟨rfl, hx⟩
    · exact ⟨rfl, h2.add ((hx.sub h2).div_left _)⟩
  exact ⟨this, this.2⟩

/-- **C206.** A mapped range. -/
theorem C206_mapped (m : MapCfg Fl) : Twin (mapped m) (mapped m) := by
  have cl : ∀ {x y : Fl}, Alike x y → ResLike Alike (fclamp x m.inLo m.inHi) (fclamp y m.inLo m.inHi) := by
    intro x y hx
    unfold fclamp
    rw [show (Arith.lt x m.inLo : Bool) = Arith.lt y m.inLo from hx.lt (alike_refl _), show (Arith.lt m.inHi x : Bool) = Arith.lt m.inHi y from (alike_refl _).lt hx]
    split
    · exact rfl
    · show Alike _ _
      split
      · exact alike_refl _
      · split
        · exact alike_refl _
        · exact hx
  have sc : ∀ {x y : Fl}, Alike x y → Alike (Fl.add m.outLo (Fl.mul (Fl.div (Fl.sub x m.inLo) (Fl.sub m.inHi m.inLo)) (Fl.sub m.outHi m.outLo)))
      (Fl.add m.outLo (Fl.mul (Fl.div (Fl.sub y m.inLo) (Fl.sub m.inHi m.inLo)) (Fl.sub m.outHi m.outLo))) := fun hx =>
    (alike_refl _).add (((hx.sub (alike_refl _)).div_left _).mul (alike_refl _))
  have mp : ∀ {x y : Fl}, Alike x y → ResLike SameOut (m.map x) (m.map y) := by
    intro x y hx
    unfold MapCfg.map
    rw [show (Arith.lt x m.inLo : Bool) = Arith.lt y m.inLo from hx.lt (alike_refl _), show (Arith.lt m.inHi x : Bool) = Arith.lt m.inHi y from (alike_refl _).lt hx]
    split
    · split
      · exact trivial
      · exact ResLike.bind (cl hx) fun p q h => sc h
    · exact sc hx
  refine ⟨Alike, alike_refl _, ?_, fun a c h => h, fun a c v w _ hv => hv⟩
  intro a c x y h hx
  refine ResLike.bind (mp hx) fun p q hpq => ?_
  cases p <;> cases q
  · exact ⟨h, trivial⟩
  · exact absurd hpq id
  · exact absurd hpq id
  · exact ⟨hpq, hpq⟩

/-- **C206.** An inverter. -/
theorem C206_inverter (b : Build) (lo hi : Fl) : Twin (inverter b lo hi) (inverter b lo hi) := by
  refine ⟨Alike, alike_refl _, ?_, fun a c h => h, fun a c v w _ hv => hv⟩
  intro a c x y _ hx
  refine ResLike.bind (R := Alike) ?_ fun p q h => ⟨h, h⟩
  unfold invert
  rw [show (Arith.le lo x : Bool) = Arith.le lo y from (alike_refl _).le hx, show (Arith.le x hi : Bool) = Arith.le y hi from hx.le (alike_refl _)]
  exact ResLike.same _ fun _ => (alike_refl _).sub (hx.sub (alike_refl _))

/-- **C206.** A filter that passes its samples on. -/
theorem C206_passthrough : Twin passthrough passthrough :=
  ⟨Alike, alike_refl _, fun _ _ _ _ _ hx => ⟨hx, hx⟩, fun _ _ h => h, fun _ _ _ _ _ hv => hv⟩

/-- Specification: the same state of a band-pass filter, up to signs of zeros. -/
def BandTwin (s t : Band Fl) : Prop := Alike s.value t.value ∧ Alike s.lower t.lower ∧ Alike s.upper t.upper ∧ s.rejections = t.rejections

theorem sample_twin (k : BandCfg Fl) {a c : Band Fl} {x y : Fl} (h : BandTwin a c) (hx : Alike x y) :
    ResLike (fun p q => p.1 = q.1 ∧ BandTwin p.2 q.2) (a.sample k x) (c.sample k y) := by
  have feqA : feq a.value (Band.unset : Fl) = feq c.value Band.unset := by
    unfold feq
    rw [show (Arith.le a.value Band.unset : Bool) = Arith.le c.value Band.unset from h.1.le (alike_refl _),
      show (Arith.le Band.unset a.value : Bool) = Arith.le Band.unset c.value from (alike_refl _).le h.1]
  have up : ∀ {s t : Band Fl}, BandTwin s t → BandTwin (Band.updateLimits k s) (Band.updateLimits k t) := by
    rintro s t ⟨h1, h2, h3, h4⟩
    have : Alike (if k.relative then Fl.add s.value k.offset else k.offset) (if k.relative then Fl.add t.value k.offset else k.offset) := by
      split
      · exact h1.add (alike_refl _)
      · exact alike_refl _
    exact ⟨h1, this.sub (alike_refl _), this.add (alike_refl _), h4⟩
  have h1 : BandTwin (if feq a.value Band.unset then a.reset x else a) (if feq c.value Band.unset then c.reset y else c) := by
    rw [feqA]
    split
    · exact ⟨hx, h.2⟩
    · exact h
  unfold Band.sample
  simp only
  revert h1
  generalize (if feq a.value Band.unset then a.reset x else a) = s0
  generalize (if feq c.value Band.unset then c.reset y else c) = t0
  intro h1
  have h2 : BandTwin (if k.relative then Band.updateLimits k s0 else s0) (if k.relative then Band.updateLimits k t0 else t0) := by
    split
    · exact up h1
    · exact h1
  revert h2
  generalize (if k.relative then Band.updateLimits k s0 else s0) = s
  generalize (if k.relative then Band.updateLimits k t0 else t0) = t
  intro h2
  rw [show (Arith.le s.lower x : Bool) = Arith.le t.lower y from h2.2.1.le hx, show (Arith.le x s.upper : Bool) = Arith.le y t.upper from hx.le h2.2.2.1, h2.2.2.2]
  split
  · exact ⟨rfl, hx, h2.2.1, h2.2.2.1, rfl⟩
  · refine ResLike.same _ fun r => ?_
    split
    · split
      · exact ⟨rfl, h2.1, h2.2.1, h2.2.2.1, rfl⟩
      · exact ⟨rfl, hx, h2.2.1, h2.2.2.1, rfl⟩
    · exact ⟨rfl, h2.1, h2.2.1, h2.2.2.1, rfl⟩

/-- **C206.** A band-pass filter. -/
theorem C206_band (k : BandCfg Fl) : Twin (band k) (band k) := by
  refine ⟨BandTwin, ⟨alike_refl _, alike_refl _, alike_refl _, rfl⟩, ?_, fun a c h => h.1, fun a c v w h hv => ⟨hv, h.2⟩⟩
  intro a c x y h hx
  refine ResLike.bind (sample_twin k h hx) ?_
  rintro ⟨f1, s⟩ ⟨f2, t⟩ ⟨h1, h⟩
  obtain rfl : f1 = f2 := h1
  cases f1 with
  | true => exact ⟨h, h.1⟩
  | false => exact ⟨h, trivial⟩

end Filter

namespace FilterStack

/-- Specification: slot by slot the same filters, up to signs of zeros. -/
def SlotTwin : Option (Filter Fl) → Option (Filter Fl) → Prop
  | none, none => True
  | some f, some g => f.Twin g
  | _, _ => False

/-- **C206.** A stack of filters that do not distinguish the zeros does not distinguish them, sample by sample. -/
theorem C206_stack (b : Build) {fs gs : FilterStack Fl} (h : List.Forall₂ SlotTwin fs gs) : ∀ {x y : Fl}, Alike x y →
    ResLike (fun p q => List.Forall₂ SlotTwin p.1 q.1 ∧ SameOut p.2 q.2) (take b fs x) (take b gs y) := by
  induction h with
  | nil => intro x y hx; exact ⟨.nil, hx⟩
  | @cons f g fs gs h1 h2 ih =>
    intro x y hx
    cases f <;> cases g
    · simp only [take]
      split
      · exact rfl
      · exact ResLike.bind (ih hx) fun p q h => ⟨.cons trivial h.1, h.2⟩
    · exact absurd h1 id
    · exact absurd h1 id
    · simp only [take]
      refine ResLike.bind (Filter.Twin.take h1 hx) ?_
      rintro ⟨f', p⟩ ⟨g', q⟩ ⟨h3, h4⟩
      cases p <;> cases q
      · exact ⟨.cons h3 h2, trivial⟩
      · exact absurd h4 id
      · exact absurd h4 id
      · exact ResLike.bind (ih h4) fun p q h => ⟨.cons h3 h.1, h.2⟩

end FilterStack

/-! ## Concrete cases -/

/-- `-0` and `0` are alike and different. -/
example : Alike (.num true 0) (.num false 0) ∧ (Fl.num true 0 ≠ Fl.num false 0) := ⟨⟨rfl, .inr rfl⟩, by simp⟩

/-- A controller that is given `-0` for `0`. -/
example : List.Forall₂ PID.Op.Like [.start, .reading (.num true 0) 100, .setpoint (Fl.ofRat 3)] [.start, .reading (.num false 0) 100, .setpoint (Fl.ofRat 3)] ∧
    (do let c : PidConfig Fl := PidConfig.default
        let s ← PID.create c .debug 0
        let a ← PID.run c .debug s [.start, .setpoint (Fl.ofRat 3), .reading (.num true 0) 100]
        let d ← PID.run c .debug s [.start, .setpoint (Fl.ofRat 3), .reading (.num false 0) 100]
        return decide (a.output = d.output ∧ a.output ≠ fzero ∧ a.input ≠ d.input) : Res Bool) = .ok true :=
  ⟨.cons trivial (.cons ⟨⟨rfl, .inr rfl⟩, rfl⟩ (.cons (alike_refl _) .nil)), by decide +kernel⟩

/-- A stack of all kinds of filters. -/
example (b : Build) (k : Fl) (m : MapCfg Fl) (w : BandCfg Fl) : List.Forall₂ FilterStack.SlotTwin [some (.ewma k), some (.band w), some (.mapped m), some .passthrough, none]
    [some (.ewma k), some (.band w), some (.mapped m), some .passthrough, none] :=
  .cons (Filter.C206_ewma k) (.cons (Filter.C206_band w) (.cons (Filter.C206_mapped m) (.cons Filter.C206_passthrough (.cons trivial .nil))))

/-- Where the sign of a zero matters: it decides between the infinities in a quotient by zero. An average over no samples divides by its frame length. -/
example : (Ewma.samples (.num false 0) Ewma.create [Fl.ofRat 1, Fl.ofRat 2]).value = .inf false ∧
    (Ewma.samples (.num true 0) Ewma.create [Fl.ofRat 1, Fl.ofRat 2]).value = .inf true := by constructor <;> decide +kernel

end Spine

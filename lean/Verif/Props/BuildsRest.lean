import Verif.Props.Builds
import Verif.Model.BandWidth
import Verif.Model.Narrow
/-!
# C192, continued: interrupts, the loop of the tuner, narrow clocks, bandpass filters, unfinished streams and command lines
-/

namespace Spine

theorem carries_interrupt {H : Type} (board : Board) (ls : Lines H) (i : Interrupt H) (f : Option H) (t : Trigger) :
    Carries (Interrupt.attach .debug board ls i f t) (Interrupt.attach .release board ls i f t) := by
  unfold Interrupt.attach; carry []

theorem carries_tuneLoop {F : Type} [Arith F] (lower upper : F) (env : List (F × Int)) : ∀ t : Tuner F, Carries (PID.tuneLoop .debug lower upper t env) (PID.tuneLoop .release lower upper t env) := by
  induction env with
  | nil => intro t; exact Carries.refl _
  | cons x env ih => intro t; obtain ⟨x, ms⟩ := x; unfold PID.tuneLoop; carry [ih]

theorem carries_band (c : BandConfig) : Carries (c.make .debug) (c.make .release) := by unfold BandConfig.make; carry []

theorem carries_answer {σ : Type} (s : BufStream σ) (g : Device.Log) (t : Transaction) (reply : List Byte) : Carries (Device.answer .debug s g t reply) (Device.answer .release s g t reply) := by
  unfold Device.answer; carry [carries_outgoing, carries_commit, carries_done]

/-- **C192**: attaching an interrupt. -/
theorem C192_interrupt {H : Type} {board : Board} {ls ls' : Lines H} {i i' : Interrupt H} {f : Option H} {t : Trigger} (h : Interrupt.attach .debug board ls i f t = .ok (i', ls')) :
    Interrupt.attach .release board ls i f t = .ok (i', ls') := (carries_interrupt board ls i f t).same _ h

/-- **C192**: the loop in which a controller is tuned, for any environment. -/
theorem C192_tuning {F : Type} [Arith F] {lower upper : F} {t : Tuner F} {env : List (F × Int)} {r} (h : PID.tuneLoop .debug lower upper t env = .ok r) :
    PID.tuneLoop .release lower upper t env = .ok r := (carries_tuneLoop lower upper env t).same _ h

/-- **C192**: constructing a bandpass filter. -/
theorem C192_bandpass {c : BandConfig} {f : Band ℝ} (h : c.make .debug = .ok f) : c.make .release = .ok f := (carries_band c).same _ h

/-- **C192**: answering a line. -/
theorem C192_answer {σ : Type} {s s' : BufStream σ} {g g' : Device.Log} {t : Transaction} {reply : List Byte} (h : Device.answer .debug s g t reply = .ok (g', s')) :
    Device.answer .release s g t reply = .ok (g', s') := (carries_answer s g t reply).same _ h

/-- **C192**: an alarm where `time_t` has 32 bits. -/
theorem C192_narrow_alarm {now future : Int} {absolute : Bool} {a : Alarm} (h : Narrow.create .debug now future absolute = .ok a) : Narrow.create .release now future absolute = .ok a := by
  cases absolute
  · exact h
  · unfold Narrow.create at h ⊢
    simp only [res_bind_ok, true_and, if_true, reduceCtorEq, and_false, if_false] at h ⊢
    obtain ⟨c, e, h⟩ := res_bind h
    obtain ⟨_, _, h⟩ := res_bind h
    exact h

/-- Two streams, of which the second one does what the first one does if that returns; how much is available they agree on. -/
structure Stream.CarriesOver {σ : Type} (D R : Stream σ) : Prop where
  available : D.available = R.available
  availableForWrite : D.availableForWrite = R.availableForWrite
  read : ∀ s, Carries (D.read s) (R.read s)
  write : ∀ s c, Carries (D.write s c) (R.write s c)

theorem carries_pullLoop {σ : Type} {D R : Stream σ} (h : D.CarriesOver R) (fuel : Nat) :
    ∀ (s : BufStream σ) (c : Byte) (n : Nat), Carries (s.pullLoop D fuel c n) (s.pullLoop R fuel c n) := by
  induction fuel with
  | zero => intro s c n; exact Carries.refl _
  | succ fuel ih =>
    intro s c n
    unfold BufStream.pullLoop
    rw [h.available]
    carry [h.read, ih]

theorem carries_pushLoop {σ : Type} {D R : Stream σ} (h : D.CarriesOver R) (fuel : Nat) : ∀ (s : BufStream σ) (n : Nat), Carries (s.pushLoop D fuel n) (s.pushLoop R fuel n) := by
  induction fuel with
  | zero => intro s n; exact Carries.refl _
  | succ fuel ih =>
    intro s n
    unfold BufStream.pushLoop
    rw [h.availableForWrite]
    carry [h.write, ih]

/-- **C192**: reading from and writing to any stream that itself does in a release build what it does in a debug build. -/
theorem C192_ports {σ : Type} {D R : Stream σ} (hD : D.CarriesOver R) {s s' : BufStream σ} {fuel n : Nat} :
    (s.pullInData D fuel = .ok (n, s') → s.pullInData R fuel = .ok (n, s')) ∧ (s.pushOutData D fuel = .ok (n, s') → s.pushOutData R fuel = .ok (n, s')) :=
  ⟨(carries_pullLoop hD fuel s 0 0).same _, (carries_pushLoop hD fuel s 0).same _⟩

/-- **C192**: streams for reading only and for writing only, whose other half fails in a debug build, are of this kind. -/
theorem C192_half_ports {σ : Type} (S : Stream σ) : (S.readOnly .debug).CarriesOver (S.readOnly .release) ∧ (S.writeOnly .debug).CarriesOver (S.writeOnly .release) :=
  ⟨⟨rfl, rfl, fun _ => Carries.refl _, fun _ _ => Carries.fails _ _⟩, ⟨rfl, rfl, fun _ => Carries.fails _ _, fun _ _ => Carries.refl _⟩⟩

/-- Non-vacuity: a board with interrupt lines, the default bandpass filter and an alarm at a time to come. -/
example : (∃ i ls, Interrupt.attach .debug ⟨false, 2, fun p => if p = 7 then some 1 else none⟩ (fun _ => none) ⟨7, .rising, none⟩ (some 5) .undefined = .ok (i, ls) ∧ ls 1 = some (some 5, 3)) ∧
    (∃ f, BandConfig.broad.make .debug = .ok f) ∧ (∃ a, Narrow.create .debug 5 9 true = .ok a) := by
  refine ⟨⟨_, _, rfl, rfl⟩, ⟨Band.create BandConfig.broad.seen, ?_⟩, ⟨⟨9, false⟩, by decide +kernel⟩⟩
  · unfold BandConfig.make BandConfig.broad
    norm_num

end Spine

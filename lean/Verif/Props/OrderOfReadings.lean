import Verif.Props.Pid
import Verif.Props.PidAccuracy
import Verif.Props.FilterAccuracy
/-!
# C211: the order of earlier readings does not matter
-/

namespace Spine
open F32

namespace Ewma

/-- **C211.** In exact arithmetic, as long as no more samples have come than the frame is long: an average that got the same samples in another order is the same, and stays the same with all
further samples. -/
theorem C211_average {k v0 : Rat} (s0 : Ewma Rat) {xs ys : List Rat} (hp : xs.Perm ys) (hk : (xs.length : Rat) ≤ k) (zs : List Rat) :
    (s0.reset v0).samples k (xs ++ zs) = (s0.reset v0).samples k (ys ++ zs) := by
  have key : (s0.reset v0).samples k xs = (s0.reset v0).samples k ys := by
    rcases eq_or_ne xs [] with rfl | hne
    · rw [List.nil_perm.mp hp]
    · have hne' : ys ≠ [] := fun h => hne (by rw [h] at hp; exact List.perm_nil.mp hp)
      have count : ∀ (l : List Rat) (s : Ewma Rat), (s.samples k l).n = s.n + l.length := by
        intro l
        induction l with
        | nil => intro s; simp [samples]
        | cons x l ih =>
          intro s
          have e : (s.sample k x).n = s.n + 1 := by unfold sample; simp only; split <;> rfl
          change ((s.sample k x).samples k l).n = _
          rw [ih, e]
          push_cast [List.length_cons]
          ring
      have h1 := C82_mean s0 (v0 := v0) hne hk
      have h2 := C82_mean s0 (v0 := v0) (k := k) hne' (by rw [← hp.length_eq]; exact hk)
      rw [← hp.sum_eq, ← hp.length_eq, ← h1] at h2
      have h3 : ((s0.reset v0).samples k xs).n = ((s0.reset v0).samples k ys).n := by rw [count, count, hp.length_eq]
      generalize (s0.reset v0).samples k xs = a at h2 h3
      generalize (s0.reset v0).samples k ys = b at h2 h3
      cases a; cases b
      simp only at h2 h3
      rw [h2, h3]
  unfold samples at key ⊢
  rw [List.foldl_append, List.foldl_append, key]

/-- **C211.** In single precision, the two averages differ by no more than the rounding errors of C135. -/
theorem C211_average_float {k v0 : Fl} (s0 : Ewma Fl) (hk : k.Ok) (hkf : k.fin = true) (hk1 : Fl.le k (Arith.ofRat 1) = false) {B : Rat} (hB : B ≤ halfMax)
    {xs ys : List Fl} (hp : xs.Perm ys) (hne : xs ≠ []) (hx : ∀ x ∈ xs, x.fin = true ∧ x.Ok ∧ |x.val| ≤ B) (hlen : (xs.length : Rat) ≤ k.val) (hmax : xs.length ≤ 2 ^ 24) :
    |((s0.reset v0).samples k xs).value.val - ((s0.reset v0).samples k ys).value.val| ≤ 2 * ((xs.length - 1) * (B / 2 ^ 22 + pow2 (-149))) := by
  have h1 := C135_mean s0 (v0 := v0) hk hkf hk1 hB hne hx hlen hmax
  have h2 := C135_mean s0 (v0 := v0) hk hkf hk1 hB (xs := ys) (fun h => hne (by rw [h] at hp; exact List.perm_nil.mp hp)) (fun x h => hx x (hp.mem_iff.mpr h))
    (by rw [← hp.length_eq]; exact hlen) (by rw [← hp.length_eq]; exact hmax)
  rw [← (hp.map Fl.val).sum_eq, ← hp.length_eq] at h2
  rw [abs_le] at h1 h2 ⊢
  constructor <;> linarith [h1.1, h1.2, h2.1, h2.2]

/-- Once the frame is full the order matters: 0, 0, 8 and 8, 0, 0 with a frame of two. -/
theorem C211_frame_counterexample : ((Ewma.create : Ewma Rat).samples 2 [0, 0, 8]).value = 4 ∧ ((Ewma.create : Ewma Rat).samples 2 [8, 0, 0]).value = 2 := by decide +kernel

end Ewma

namespace PID
open Pid

/-- Specification: away from the limits, neither the carried part nor the output reaches one. -/
def Free (s : Pid Rat) (vs : List Rat) : Prop :=
  (∀ p, p <+: vs → p ≠ [] → s.lo ≤ carried s.onMeasurement s.kp s.ki s.setpoint s.cumulative s.lastReading p ∧
    carried s.onMeasurement s.kp s.ki s.setpoint s.cumulative s.lastReading p ≤ s.hi) ∧
  s.lo ≤ pidLaw s.onMeasurement s.kp s.ki s.kd s.setpoint s.cumulative s.lastReading vs ∧ pidLaw s.onMeasurement s.kp s.ki s.kd s.setpoint s.cumulative s.lastReading vs ≤ s.hi

theorem law_perm {m : Bool} {kp ki kd sp c0 x0 a b : Rat} {xs ys : List Rat} (hp : xs.Perm ys) : pidLaw m kp ki kd sp c0 x0 (xs ++ [a, b]) = pidLaw m kp ki kd sp c0 x0 (ys ++ [a, b]) := by
  have e1 : ∀ l : List Rat, (l ++ [a, b]).getLastD x0 = b := fun l => by simp [List.getLastD_eq_getLast?]
  have e2 : ∀ l : List Rat, previous x0 (l ++ [a, b]) = a := fun l => by
    have : l ++ [a, b] = (l ++ [a]) ++ [b] := by simp
    unfold previous
    rw [this, List.dropLast_concat]
    simp [List.getLastD_eq_getLast?]
  have e3 : errorSum sp (xs ++ [a, b]) = errorSum sp (ys ++ [a, b]) := by
    unfold errorSum
    exact ((hp.append_right _).map _).sum_eq
  simp only [pidLaw, carried, e1, e2, e3]

/-- **C211.** In exact arithmetic and away from the limits: of the readings before the last two, a controller knows only their sum, not their order. -/
theorem C211_controller {s s' t' : Pid Rat} {rs qs : List (Int × Rat)} {fs gs : List Bool} {xs ys : List Rat} {a b : Rat} (hp : xs.Perm ys) (h1 : readings s rs = .ok (fs, s'))
    (h2 : readings s qs = .ok (gs, t')) (hf : ∀ f ∈ fs, f = true) (hg : ∀ g ∈ gs, g = true) (er : rs.map Prod.snd = xs ++ [a, b]) (eq : qs.map Prod.snd = ys ++ [a, b])
    (k1 : Free s (xs ++ [a, b])) (k2 : Free s (ys ++ [a, b])) : s'.output = t'.output := by
  have n1 : rs ≠ [] := by rintro rfl; simp at er
  have n2 : qs ≠ [] := by rintro rfl; simp at eq
  rw [C79_law h1 hf n1 (by rw [er]; exact k1.1) (by rw [er]; exact k1.2), C79_law h2 hg n2 (by rw [eq]; exact k2.1) (by rw [eq]; exact k2.2), er, eq]
  exact law_perm hp

/-- A controller with an output of 50 and gains of 2, 1, 3. -/
def middle : Pid Rat := ⟨2, 1, 3, false, 20, 50, 20, 0, 50, 20, 100, 0, 255, false⟩

/-- 10, 40, 21, 22 and 40, 10, 21, 22 lead to the same output, 50 + 10 - 20 - 1 - 2 - 4 - 3. -/
example : (do return [(← readings middle [(100, 10), (200, 40), (300, 21), (400, 22)]).2.output, (← readings middle [(100, 40), (200, 10), (300, 21), (400, 22)]).2.output] : Res (List Rat)) =
    .ok [30, 30] := by decide +kernel

/-- They stay away from the limits. -/
example : Free middle ([10, 40] ++ [21, 22]) ∧ Free middle ([40, 10] ++ [21, 22]) := by
  have key : ∀ l ∈ [[10, 40] ++ [21, 22], [40, 10] ++ [21, 22]], (∀ p ∈ List.inits l, p ≠ [] →
      middle.lo ≤ carried middle.onMeasurement middle.kp middle.ki middle.setpoint middle.cumulative middle.lastReading p ∧
      carried middle.onMeasurement middle.kp middle.ki middle.setpoint middle.cumulative middle.lastReading p ≤ middle.hi) ∧
      middle.lo ≤ pidLaw middle.onMeasurement middle.kp middle.ki middle.kd middle.setpoint middle.cumulative middle.lastReading l ∧
      pidLaw middle.onMeasurement middle.kp middle.ki middle.kd middle.setpoint middle.cumulative middle.lastReading l ≤ middle.hi := by decide +kernel
  exact ⟨⟨fun p hp => (key _ (by simp)).1 p ((List.mem_inits _ _).mpr hp), (key _ (by simp)).2⟩, fun p hp => (key _ (by simp)).1 p ((List.mem_inits _ _).mpr hp), (key _ (by simp)).2⟩

/-- At a limit the order matters: a sum that would fall below zero is cut off. -/
theorem C211_limit_counterexample : (do return [(← readings middle [(100, 10), (200, 80), (300, 20), (400, 20)]).2.output, (← readings middle [(100, 80), (200, 10), (300, 20), (400, 20)]).2.output] : Res (List Rat)) =
    .ok [0, 10] := by decide +kernel

end PID

end Spine

import Verif.Props.FilterOrder
import Verif.Props.FilteredLatch
/-!
# C191: larger readings never turn a latch off
-/

namespace Spine

open Latch

section
variable {F : Type} [Arith F]

/-- No minimal and no maximal times. -/
def LatchConfig.Plain (c : LatchConfig F) : Prop := c.minOn = 0 ∧ c.maxOn = 0 ∧ c.minOff = 0 ∧ c.maxOff = 0

/-- Two series of readings at the same times, the first nowhere above the second. -/
def Beneath (rs rs' : List (Int × F)) : Prop := List.Forall₂ (fun r r' => r.1 = r'.1 ∧ Arith.le r.2 r'.2 = true) rs rs'

/-- Two series of responses: whenever the first is on, so is the second. -/
def Covered (os os' : List Bool) : Prop := List.Forall₂ (fun o o' => o = true → o' = true) os os'

instance (os os' : List Bool) : Decidable (Covered os os') := by unfold Covered; infer_instance

end

namespace LatchOrder

theorem near_near (v : Int) : near (near v) = near v := by
  have h : (near (near v) : Rat) = near v := by rw [near_cast (near v), near_cast v, F32.rnd_rnd]
  exact_mod_cast h

section
variable {F : Type} [Arith F]

theorem _root_.Spine.LatchConfig.Plain.sane {c : LatchConfig F} (h : c.Plain) {m : Int} (hm : 0 ≤ m) : Sane c m := by
  obtain ⟨h1, h2, h3, h4⟩ := h
  constructor <;> simp [h1, h2, h3, h4, hm]

/-- What is known of two latches of which the second is on whenever the first is: if both are on, the second one has been used as recently as the first, and the other way
round if both are off.  Times are compared as the code sees them. -/
structure Joint (l l' : Latch) : Prop where
  on : l.on = true → l'.on = true
  both : l.on = true → near l.turned.last ≤ near l'.turned.last
  none : l'.on = false → near l'.turned.last ≤ near l.turned.last

theorem next_plain {c : LatchConfig F} (h : c.Plain) (l : Latch) (now : Int) (v : F) :
    next c l now (now - near l.turned.last) v =
      if now < near l.turned.last then l else if Arith.lt c.high v then set true now else if Arith.lt v c.low then set false now else l := by
  obtain ⟨h1, h2, h3, h4⟩ := h
  unfold next
  simp only [h1, h2, h3, h4, ite_self, near_zero, ne_eq, not_true_eq_false, false_and, if_false, sub_neg]

theorem step {c c' : LatchConfig F} (hp : c.Plain) (hp' : c'.Plain) {l l' : Latch} (hj : Joint l l') {now : Int} (h1 : l.turned.last ≤ now) (h2 : l'.turned.last ≤ now) {v v' : F}
    (hh : Arith.lt c.high v = true → Arith.lt c'.high v' = true) (hl : Arith.lt v' c'.low = true → Arith.lt v c.low = true) :
    Joint (next c l now (now - near l.turned.last) v) (next c' l' now (now - near l'.turned.last) v') := by
  have cell : ∀ {a : Int}, a ≤ now → now < near a → near a = near now := by
    intro a ha hb
    have := near_mono hb.le
    rw [near_near] at this
    exact le_antisymm (near_mono ha) this
  have hm1 := near_mono h1
  have hm2 := near_mono h2
  obtain ⟨j1, j2, j3⟩ := hj
  rw [next_plain hp, next_plain hp']
  have c1 := cell h1
  have c2 := cell h2
  clear cell h1 h2 hp hp'
  obtain ⟨on, last⟩ := l
  obtain ⟨on', last'⟩ := l'
  simp only [Latch.set, Timer.create] at *
  generalize Arith.lt c.high v = p at *
  generalize Arith.lt v c.low = q at *
  generalize Arith.lt c'.high v' = p' at *
  generalize Arith.lt v' c'.low = q' at *
  by_cases g : now < near last.last <;> by_cases g' : now < near last'.last <;> simp only [g, g', if_true, if_false, forall_const] at c1 c2 ⊢
  all_goals
    cases on <;> cases on' <;> simp only [forall_const, Bool.false_eq_true, reduceCtorEq, IsEmpty.forall_iff] at j1 j2 j3
    all_goals
      cases p <;> cases p' <;> simp only [forall_const, Bool.false_eq_true, reduceCtorEq, IsEmpty.forall_iff] at hh <;>
      cases q <;> cases q' <;> simp only [forall_const, Bool.false_eq_true, reduceCtorEq, IsEmpty.forall_iff] at hl <;>
      constructor <;> simp <;> omega

theorem runs {c c' : LatchConfig F} (hp : c.Plain) (hp' : c'.Plain) {rs rs' : List (Int × F)}
    (hr : List.Forall₂ (fun r r' : Int × F => r.1 = r'.1 ∧ (Arith.lt c.high r.2 = true → Arith.lt c'.high r'.2 = true) ∧ (Arith.lt r'.2 c'.low = true → Arith.lt r.2 c.low = true)) rs rs') :
    ∀ {l l' : Latch} {hi : Int}, Joint l l' → |l.turned.last| ≤ 2 ^ 61 → |l'.turned.last| ≤ 2 ^ 61 → |hi| ≤ 2 ^ 61 → Times l.turned.last rs hi → Times l'.turned.last rs hi →
      ∃ os os' m m', l.run c rs = .ok (os, m) ∧ l'.run c' rs' = .ok (os', m') ∧ Covered os os' := by
  induction hr with
  | nil => intro l l' hi _ _ _ _ _ _; exact ⟨[], [], l, l', rfl, rfl, .nil⟩
  | @cons r r' rs rs' h _ ih =>
    intro l l' hi hj h1 h1' h2 ht ht'
    obtain ⟨n, v⟩ := r
    obtain ⟨n', v'⟩ := r'
    obtain ⟨e, hh, hl⟩ := h
    simp only at e hh hl
    subst e
    have hn := ht.2 (n, v) (by simp)
    have hn' := ht'.2 (n, v) (by simp)
    simp only at hn hn'
    have hq := ht.1
    simp only [List.map_cons, List.pairwise_cons] at hq
    have hnb : |n| ≤ 2 ^ 61 := by rw [abs_le] at h1 h2 ⊢; omega
    have ha := next_last (cfg := c) (v := v) (s := n - near l.turned.last) hn.1
    have hb := next_last (cfg := c') (v := v') (s := n - near l'.turned.last) hn'.1
    have hj' := step hp hp' hj hn.1 hn'.1 hh hl
    obtain ⟨os, os', m, m', h5, h6, h7⟩ := ih hj' (by rw [abs_le] at h1 hnb ⊢; omega) (by rw [abs_le] at h1' hnb ⊢; omega) h2
      ⟨hq.2, fun r hr => ⟨ha.2.trans (hq.1 r.1 (List.mem_map_of_mem hr)), (ht.2 r (by simp [hr])).2⟩⟩
      ⟨hq.2, fun r hr => ⟨hb.2.trans (hq.1 r.1 (List.mem_map_of_mem hr)), (ht.2 r (by simp [hr])).2⟩⟩
    refine ⟨_ :: os, _ :: os', m, m', ?_, ?_, .cons hj'.on h7⟩
    · simp only [run, newReading_eq (hp.sane (by norm_num)) h1 hnb, res_bind_ok, h5, res_pure]
    · simp only [run, newReading_eq (hp'.sane (by norm_num)) h1' hnb, res_bind_ok, h6, res_pure]

theorem covered {c c' : LatchConfig F} (hp : c.Plain) (hp' : c'.Plain) {rs rs' : List (Int × F)}
    (hr : List.Forall₂ (fun r r' : Int × F => r.1 = r'.1 ∧ (Arith.lt c.high r.2 = true → Arith.lt c'.high r'.2 = true) ∧ (Arith.lt r'.2 c'.low = true → Arith.lt r.2 c.low = true)) rs rs')
    {t0 t1 : Int} (h0 : |t0| ≤ 2 ^ 60) (h1 : |t1| ≤ 2 ^ 60) (ht : Times t0 rs t1) :
    ∃ os os', responses c t0 rs = .ok os ∧ responses c' t0 rs' = .ok os' ∧ Covered os os' := by
  obtain ⟨l, a1, a2, a3, a4, a5⟩ := create_ok (hp.sane (by norm_num)) hp.2.2.1.ge h0
  obtain ⟨l', b1, b2, b3, b4, b5⟩ := create_ok (hp'.sane (by norm_num)) hp'.2.2.1.ge h0
  rw [hp.2.2.1, near_zero, sub_zero] at a3
  rw [hp'.2.2.1, near_zero, sub_zero] at b3
  obtain ⟨os, os', m, m', h5, h6, h7⟩ := runs hp hp' hr (l := l) (l' := l') (hi := t1) ⟨by simp [a2], by simp [a2], by simp [a3, b3]⟩ a5 b5 (h1.trans (by norm_num))
    (by rw [a3]; exact ht) (by rw [b3]; exact ht)
  exact ⟨os, os', by simp only [responses, a1, res_bind_ok, h5, res_pure], by simp only [responses, b1, res_bind_ok, h6, res_pure], h7⟩

theorem lt_le {x y z : Fl} (h : Fl.lt x y = true) (h' : Fl.le y z = true) : Fl.lt x z = true := by
  cases x <;> cases y <;> cases z <;> simp_all [Fl.lt, Fl.le]
  all_goals first | linarith | skip

theorem le_lt {x y z : Fl} (h : Fl.le x y = true) (h' : Fl.lt y z = true) : Fl.lt x z = true := by
  cases x <;> cases y <;> cases z <;> simp_all [Fl.lt, Fl.le]
  all_goals first | linarith | skip

end

end LatchOrder

open LatchOrder

/-- **C191** in single precision: with readings that are nowhere smaller and thresholds that are not higher, a latch is on whenever the other is. -/
theorem C191_latch {c c' : LatchConfig Fl} (hp : c.Plain) (hp' : c'.Plain) (hhigh : Fl.le c'.high c.high = true) (hlow : Fl.le c'.low c.low = true) {rs rs' : List (Int × Fl)}
    (hr : Beneath rs rs') {t0 t1 : Int} (h0 : |t0| ≤ 2 ^ 60) (h1 : |t1| ≤ 2 ^ 60) (ht : Times t0 rs t1) :
    ∃ os os', responses c t0 rs = .ok os ∧ responses c' t0 rs' = .ok os' ∧ Covered os os' := by
  refine covered hp hp' (hr.imp ?_) h0 h1 ht
  rintro r r' ⟨h, hle⟩
  exact ⟨h, fun g => le_lt hhigh (lt_le g hle), fun g => le_lt hle (lt_le g hlow)⟩

/-- **C191** with exact readings. -/
theorem C191_exact {c c' : LatchConfig Rat} (hp : c.Plain) (hp' : c'.Plain) (hhigh : c'.high ≤ c.high) (hlow : c'.low ≤ c.low) {rs rs' : List (Int × Rat)}
    (hr : Beneath rs rs') {t0 t1 : Int} (h0 : |t0| ≤ 2 ^ 60) (h1 : |t1| ≤ 2 ^ 60) (ht : Times t0 rs t1) :
    ∃ os os', responses c t0 rs = .ok os ∧ responses c' t0 rs' = .ok os' ∧ Covered os os' := by
  refine covered hp hp' (hr.imp ?_) h0 h1 ht
  rintro r r' ⟨h, hle⟩
  simp only [Arith.le, Arith.lt, decide_eq_true_eq] at hle ⊢
  exact ⟨h, fun g => by linarith, fun g => by linarith⟩

/-- Averages of larger samples are larger. -/
theorem averages_beneath {k : Rat} (hk : 1 ≤ k) {rs rs' : List (Int × Rat)} (hr : Beneath rs rs') : Beneath (averages k Ewma.create rs) (averages k Ewma.create rs') := by
  have key : ∀ (s t : Ewma Rat), s.n = t.n → (s.n = 0 ∨ 1 ≤ s.n ∧ s.value ≤ t.value) → Beneath (averages k s rs) (averages k t rs') := by
    unfold Beneath at hr ⊢
    induction hr with
    | nil => intro s t _ _; exact .nil
    | @cons r r' rs rs' h _ ih =>
      intro s t hn hv
      obtain ⟨a, x⟩ := r
      obtain ⟨a', y⟩ := r'
      obtain ⟨e, hxy⟩ := h
      simp only [Arith.le, decide_eq_true_eq] at e hxy
      have hle : (s.sample k x).value ≤ (t.sample k y).value := by
        rcases hv with h0 | ⟨h1, h2⟩
        · have e1 : (s.sample k x).value = x := by simp [Ewma.sample, feq, fzero, Arith.le, Arith.ofRat, h0]
          have e2 : (t.sample k y).value = y := by simp [Ewma.sample, feq, fzero, Arith.le, Arith.ofRat, ← hn, h0]
          rw [e1, e2]; exact hxy
        · have hs : feq s.n (fzero : Rat) = false := by
            have : Arith.le s.n (fzero : Rat) = false := decide_eq_false (by simp only [fzero, Arith.ofRat]; linarith)
            simp [feq, this]
          have e1 : (s.sample k x).value = s.value + (x - s.value) / fmin (s.n + 1) k := by simp [Ewma.sample, hs, Arith.add, Arith.sub, Arith.div, Arith.ofRat]
          have e2 : (t.sample k y).value = t.value + (y - t.value) / fmin (s.n + 1) k := by simp [Ewma.sample, ← hn, hs, Arith.add, Arith.sub, Arith.div, Arith.ofRat]
          rw [e1, e2]
          have hm : 1 ≤ fmin (s.n + 1) k := by unfold fmin; split <;> linarith
          generalize fmin (s.n + 1) k = m at hm
          have hm0 : 0 < m := by linarith
          have e3 : ∀ v x : Rat, v + (x - v) / m = v * ((m - 1) / m) + x / m := by intro v x; field_simp; ring
          rw [e3, e3]
          have := mul_le_mul_of_nonneg_right h2 (show 0 ≤ (m - 1) / m from div_nonneg (by linarith) hm0.le)
          have := div_le_div_of_nonneg_right hxy hm0.le
          linarith
      have hn1 : (s.sample k x).n = s.n + 1 := by unfold Ewma.sample; dsimp only; split <;> rfl
      have hn2 : (t.sample k y).n = t.n + 1 := by unfold Ewma.sample; dsimp only; split <;> rfl
      refine .cons ⟨e, by simpa [Arith.le] using hle⟩ (ih _ _ (by rw [hn1, hn2, hn]) (.inr ⟨?_, hle⟩))
      rw [hn1]
      rcases hv with h0 | ⟨h1, -⟩ <;> linarith
  exact key _ _ rfl (.inl rfl)

/-- **C191** for a latch that is given the averages of exact samples. -/
theorem C191_filtered {c c' : LatchConfig Rat} (hp : c.Plain) (hp' : c'.Plain) (hhigh : c'.high ≤ c.high) (hlow : c'.low ≤ c.low) {k : Rat} (hk : 1 ≤ k) {rs rs' : List (Int × Rat)}
    (hr : Beneath rs rs') {t0 t1 : Int} (h0 : |t0| ≤ 2 ^ 60) (h1 : |t1| ≤ 2 ^ 60) (ht : Times t0 rs t1) :
    ∃ os os', filteredResponses c k t0 rs = .ok os ∧ filteredResponses c' k t0 rs' = .ok os' ∧ Covered os os' := by
  have times : ∀ (rs : List (Int × Rat)) (s : Ewma Rat), (averages k s rs).map Prod.fst = rs.map Prod.fst := by
    intro rs
    induction rs with
    | nil => intro s; rfl
    | cons r rs ih => intro s; simp [averages, ih]
  refine C191_exact hp hp' hhigh hlow (averages_beneath hk hr) h0 h1 ⟨by rw [times]; exact ht.1, ?_⟩
  intro r hm
  have := List.mem_map_of_mem (f := Prod.fst) hm
  rw [times] at this
  obtain ⟨q, hq, e⟩ := List.mem_map.mp this
  rw [← e]
  exact ht.2 q hq

/-! ## With minimal or maximal times -/

/-- With a minimal on time of 100 ms: the latch with the larger readings goes on first, and is allowed to go off first. -/
theorem C191_minimal_counterexample :
    Beneath [(0, 25), (50, 31), (100, 10)] [(0, (31 : Rat)), (50, 31), (100, 10)] ∧
    Latch.responses { high := 30, low := 20, minOn := 100 : LatchConfig Rat } 0 [(0, 25), (50, 31), (100, 10)] = .ok [false, true, true] ∧
    Latch.responses { high := 30, low := 20, minOn := 100 : LatchConfig Rat } 0 [(0, 31), (50, 31), (100, 10)] = .ok [true, true, false] := by
  refine ⟨?_, by decide +kernel, by decide +kernel⟩
  unfold Beneath
  decide +kernel

/-- With a maximal on time of 100 ms the latch with the larger readings is switched off when the other one goes on, and with a maximal off time of 100 ms the latch with the
smaller readings is switched on when the other one goes off. -/
theorem C191_maximal_counterexample :
    Beneath [(0, 25), (101, (31 : Rat))] [(0, 31), (101, 31)] ∧
    Latch.responses { high := 30, low := 20, maxOn := 100 : LatchConfig Rat } 0 [(0, 25), (101, 31)] = .ok [false, true] ∧
    Latch.responses { high := 30, low := 20, maxOn := 100 : LatchConfig Rat } 0 [(0, 31), (101, 31)] = .ok [true, false] ∧
    Beneath [(50, 25), (101, (10 : Rat))] [(50, 31), (101, 10)] ∧
    Latch.responses { high := 30, low := 20, maxOff := 100 : LatchConfig Rat } 0 [(50, 25), (101, 10)] = .ok [false, true] ∧
    Latch.responses { high := 30, low := 20, maxOff := 100 : LatchConfig Rat } 0 [(50, 31), (101, 10)] = .ok [true, false] := by
  refine ⟨?_, by decide +kernel, by decide +kernel, ?_, by decide +kernel, by decide +kernel⟩ <;> unfold Beneath <;> decide +kernel

/-! ## Cases -/

/-- Two rooms, the second one warmer. -/
example : ({ high := 30, low := 20 : LatchConfig Rat }).Plain ∧ Beneath [(0, 25), (10, 31), (20, 25), (30, 19), (40, 18)] [(0, (31 : Rat)), (10, 32), (20, 25), (30, 20), (40, 19)] ∧
    Times 0 [(0, 25), (10, 31), (20, 25), (30, 19), (40, (18 : Rat))] 40 ∧
    Latch.responses { high := 30, low := 20 : LatchConfig Rat } 0 [(0, 25), (10, 31), (20, 25), (30, 19), (40, 18)] = .ok [false, true, true, false, false] ∧
    Latch.responses { high := 30, low := 20 : LatchConfig Rat } 0 [(0, 31), (10, 32), (20, 25), (30, 20), (40, 19)] = .ok [true, true, true, true, false] ∧
    filteredResponses { high := 30, low := 20 : LatchConfig Rat } 2 0 [(0, 25), (10, 39), (20, 25), (30, 9)] = .ok [false, true, true, false] := by
  refine ⟨⟨rfl, rfl, rfl, rfl⟩, ?_, by decide +kernel, by decide +kernel, by decide +kernel, by decide +kernel⟩
  unfold Beneath
  decide +kernel

/-- In single precision, with a lower threshold. -/
example : Fl.le (Fl.ofRat 29) (Fl.ofRat 30) = true ∧ Beneath [(0, Fl.ofRat 25), (10, Fl.ofRat (299 / 10))] [(0, Fl.ofRat 25), (10, Fl.ofRat (299 / 10))] ∧
    Latch.responses { high := Fl.ofRat 30, low := Fl.ofRat 20 } 0 [(0, Fl.ofRat 25), (10, Fl.ofRat (299 / 10))] = .ok [false, false] ∧
    Latch.responses { high := Fl.ofRat 29, low := Fl.ofRat 20 } 0 [(0, Fl.ofRat 25), (10, Fl.ofRat (299 / 10))] = .ok [false, true] := by
  refine ⟨by decide +kernel, ?_, by decide +kernel, by decide +kernel⟩
  unfold Beneath
  decide +kernel

end Spine

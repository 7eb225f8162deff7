import Verif.Model.Latch
import Verif.Spec.Switches
import Verif.Proofs.Timers
/-!
# Proofs about `SRLatch`
-/

namespace Spine

theorem ne_zero (v : Int) : KTime.ne .milli .milli v 0 = .ok (!decide (v = 0)) := by
  simp only [KTime.ne, KTime.eq, fromOther_mid .milli (v := 0) (by norm_num), near_zero, res_bind_ok, res_pure]

theorem kLt_near {a b : Int} (hb : |b| ≤ 2 ^ 62) : KTime.lt .milli .milli a b = .ok (decide (a < near b)) := by
  simp only [KTime.lt, fromOther_mid _ hb, res_bind_ok, res_pure]

namespace Latch

variable {F : Type} [Arith F] {cfg : LatchConfig F} {l l' : Latch} {now : Int} {v : F}

/-- The times of a configuration in range. -/
structure Sane (cfg : LatchConfig F) (m : Int) : Prop where
  minOn : |cfg.minOn| ≤ m
  maxOn : |cfg.maxOn| ≤ m
  minOff : |cfg.minOff| ≤ m
  maxOff : |cfg.maxOff| ≤ m

/-- What one reading does, with the time since the last change as the code sees it. -/
def next (cfg : LatchConfig F) (l : Latch) (now since : Int) (v : F) : Latch :=
  if since < near (if l.on then cfg.minOn else cfg.minOff) then l
  else if (if l.on then cfg.maxOn else cfg.maxOff) ≠ 0 ∧ near (if l.on then cfg.maxOn else cfg.maxOff) < since then set (!l.on) now
  else if Arith.lt cfg.high v then set true now
  else if Arith.lt v cfg.low then set false now
  else l

theorem newReading_eq (hs : Sane cfg (2 ^ 62)) (hl : |l.turned.last| ≤ 2 ^ 61) (hn : |now| ≤ 2 ^ 61) :
    l.newReading cfg now v = .ok (next cfg l now (now - near l.turned.last) v) := by
  have hnl : |near l.turned.last| ≤ 2 ^ 62 := near_small (hl.trans (by norm_num))
  have hsince : l.since now = .ok (now - near l.turned.last) := by
    have : i64 (now - near l.turned.last) = .ok (now - near l.turned.last) := by
      apply i64_ok
      rw [abs_le] at hnl hn
      unfold InI64; omega
    simp only [since, Timer.timeSinceLast, msSub_near (hl.trans (by norm_num)), this, res_bind_ok, res_pure]
  unfold newReading next
  simp only [hsince, res_bind_ok, kLt_near hs.minOn, kLt_near hs.minOff, msGt_near hs.maxOn, msGt_near hs.maxOff, ne_zero, res_pure]
  cases hon : l.on <;> simp only [both, Bool.not_true, Bool.not_false, Bool.and_true, Bool.and_false, Bool.false_eq_true, if_true, if_false,
    res_bind_ok, decide_eq_true_eq]
  all_goals
    split
    · rfl
    · split
      · simp_all only [Bool.not_eq_true', decide_eq_false_iff_not, decide_eq_true_eq, ne_eq, not_false_eq_true, true_and, gt_iff_lt]
        split_ifs <;> simp_all
      · simp_all only [Bool.not_eq_true', Bool.not_eq_true, Bool.not_eq_false', decide_eq_false_iff_not, decide_eq_true_eq, ne_eq, not_true_eq_false, false_and,
          if_false, Bool.false_eq_true]
        split_ifs <;> simp_all

/-! ### Histories -/

theorem run_append (as bs : List (Int × F)) : ∀ l : Latch, l.run cfg (as ++ bs) =
    (l.run cfg as >>= fun x => x.2.run cfg bs >>= fun y => .ok (x.1 ++ y.1, y.2)) := by
  induction as with
  | nil => 
    intro l
    simp only [List.nil_append, run, res_bind_ok]
    cases l.run cfg bs <;> rfl
  | cons r as ih =>
    intro l
    obtain ⟨n, v⟩ := r
    simp only [List.cons_append, run]
    cases l.newReading cfg n v with
    | error e => rfl
    | ok l1 =>
      simp only [res_bind_ok, ih]
      cases l1.run cfg as with
      | error e => rfl
      | ok x =>
        simp only [res_bind_ok, res_pure]
        cases x.2.run cfg bs <;> rfl

theorem next_last {s : Int} (h : l.turned.last ≤ now) : l.turned.last ≤ (next cfg l now s v).turned.last ∧ (next cfg l now s v).turned.last ≤ now := by
  unfold next
  split_ifs <;> simp [set, Timer.create, h]

theorem next_change {s : Int} (h : (next cfg l now s v).on ≠ l.on) :
    near (if l.on then cfg.minOn else cfg.minOff) ≤ s ∧ (next cfg l now s v).turned.last = now := by
  unfold next at h ⊢
  split_ifs at h ⊢ <;> simp_all [set, Timer.create]

theorem run_ok (hs : Sane cfg (2 ^ 62)) (rs : List (Int × F)) : ∀ (l : Latch) (hi : Int), |l.turned.last| ≤ 2 ^ 61 → |hi| ≤ 2 ^ 61 → Times l.turned.last rs hi →
    ∃ os l', l.run cfg rs = .ok (os, l') ∧ os.length = rs.length ∧ l.turned.last ≤ l'.turned.last ∧ (rs ≠ [] ∨ l.turned.last ≤ hi → l'.turned.last ≤ hi) := by
  induction rs with
  | nil => intro l hi h1 h2 _; exact ⟨[], l, rfl, rfl, le_rfl, by simp⟩
  | cons r rs ih =>
    intro l hi h1 h2 ht
    obtain ⟨n, v⟩ := r
    have hn := ht.2 (n, v) (by simp)
    simp only at hn
    have hp := ht.1
    simp only [List.map_cons, List.pairwise_cons] at hp
    have hnb : |n| ≤ 2 ^ 61 := by rw [abs_le] at h1 h2 ⊢; omega
    have hl := next_last (cfg := cfg) (v := v) (s := n - near l.turned.last) hn.1
    obtain ⟨os, l', h5, h6, h7, h8⟩ := ih (next cfg l n (n - near l.turned.last) v) hi (by rw [abs_le] at h1 hnb ⊢; omega) h2
      ⟨hp.2, fun r hr => ⟨hl.2.trans (hp.1 r.1 (List.mem_map_of_mem hr)), (ht.2 r (by simp [hr])).2⟩⟩
    refine ⟨(next cfg l n (n - near l.turned.last) v).on :: os, l', ?_, by simp [h6], hl.1.trans h7, fun _ => h8 (.inr (hl.2.trans hn.2))⟩
    simp only [run, newReading_eq hs h1 hnb, res_bind_ok, h5, res_pure]

/-- Changes are as far apart as the minimal times demand, in the arithmetic of the code. -/
theorem run_chain (hs : Sane cfg (2 ^ 62)) (rs : List (Int × F)) : ∀ (l : Latch) (hi c : Int), |l.turned.last| ≤ 2 ^ 61 → |hi| ≤ 2 ^ 61 → 
    Times l.turned.last rs hi → c ≤ l.turned.last → ∀ os l', l.run cfg rs = .ok (os, l') →
    ((c, l.on) :: switches l.on ((rs.map Prod.fst).zip os)).IsChain (fun a d => near (if a.2 then cfg.minOn else cfg.minOff) ≤ d.1 - near a.1) := by
  induction rs with
  | nil => intro l hi c _ _ _ _ os l' h; simp [switches]
  | cons r rs ih =>
    intro l hi c h1 h2 ht hc os l' h
    obtain ⟨n, v⟩ := r
    have hn := ht.2 (n, v) (by simp)
    simp only at hn
    have hp := ht.1
    simp only [List.map_cons, List.pairwise_cons] at hp
    have hnb : |n| ≤ 2 ^ 61 := by rw [abs_le] at h1 h2 ⊢; omega
    have hl := next_last (cfg := cfg) (v := v) (s := n - near l.turned.last) hn.1
    have hr := next_change (cfg := cfg) (v := v) (l := l) (now := n) (s := n - near l.turned.last)
    simp only [run, newReading_eq hs h1 hnb, res_bind_ok] at h
    generalize next cfg l n (n - near l.turned.last) v = l1 at *
    have hT : Times l1.turned.last rs hi := ⟨hp.2, fun r hr => ⟨hl.2.trans (hp.1 r.1 (List.mem_map_of_mem hr)), (ht.2 r (by simp [hr])).2⟩⟩
    cases hq : l1.run cfg rs with
    | error e => rw [hq] at h; simp only [res_bind_error] at h; cases h
    | ok x =>
      obtain ⟨os1, l2⟩ := x
      rw [hq] at h
      simp only [res_bind_ok, res_pure, Except.ok.injEq, Prod.mk.injEq] at h
      obtain ⟨rfl, rfl⟩ := h
      simp only [List.map_cons, List.zip_cons_cons, switches]
      by_cases e : l1.on = l.on
      · rw [if_pos e]
        have := ih l1 hi c (by rw [abs_le] at h1 hnb ⊢; omega) h2 hT (hc.trans hl.1) os1 l2 hq
        rwa [e] at this
      · rw [if_neg e]
        obtain ⟨h3, h4⟩ := hr e
        refine List.IsChain.cons_cons ?_ (ih l1 hi n (by rw [abs_le] at h1 hnb ⊢; omega) h2 hT h4.ge os1 l2 hq)
        have := near_mono hc
        simp only
        omega

/-- A latch that neither changes nor sees a reading on its own side of the band keeps its timer. -/
theorem run_quiet (hs : Sane cfg (2 ^ 62)) (b : Bool) (rs : List (Int × F)) : ∀ (l : Latch) (hi : Int), |l.turned.last| ≤ 2 ^ 61 → |hi| ≤ 2 ^ 61 → 
    Times l.turned.last rs hi → l.on = b → (∀ r ∈ rs, (if b then Arith.lt cfg.high r.2 else Arith.lt r.2 cfg.low) = false) → 
    ∀ os l', l.run cfg rs = .ok (os, l') → (∀ o ∈ os, o = b) → l' = l := by
  induction rs with
  | nil => intro l hi _ _ _ _ _ os l' h _; cases h; rfl
  | cons r rs ih =>
    intro l hi h1 h2 ht hb hv os l' h ho
    obtain ⟨n, v⟩ := r
    have hn := ht.2 (n, v) (by simp)
    simp only at hn
    have hp := ht.1
    simp only [List.map_cons, List.pairwise_cons] at hp
    have hnb : |n| ≤ 2 ^ 61 := by rw [abs_le] at h1 h2 ⊢; omega
    have hl := next_last (cfg := cfg) (v := v) (s := n - near l.turned.last) hn.1
    have hr : (next cfg l n (n - near l.turned.last) v).on = b → next cfg l n (n - near l.turned.last) v = l := by
      have hv' := hv (n, v) (by simp)
      unfold next
      subst hb
      cases hon : l.on <;> simp only [hon, if_true, if_false, Bool.false_eq_true] at hv' ⊢ <;> split_ifs <;> simp_all [set]
    simp only [run, newReading_eq hs h1 hnb, res_bind_ok] at h
    generalize next cfg l n (n - near l.turned.last) v = l1 at *
    have hT : Times l1.turned.last rs hi := ⟨hp.2, fun r hr => ⟨hl.2.trans (hp.1 r.1 (List.mem_map_of_mem hr)), (ht.2 r (by simp [hr])).2⟩⟩
    cases hq : l1.run cfg rs with
    | error e => rw [hq] at h; simp only [res_bind_error] at h; cases h
    | ok x =>
      obtain ⟨os1, l2⟩ := x
      rw [hq] at h
      simp only [res_bind_ok, res_pure, Except.ok.injEq, Prod.mk.injEq] at h
      obtain ⟨rfl, rfl⟩ := h
      have h5 : l1.on = b := ho _ (by simp)
      have h6 := hr h5
      subst h6
      exact ih l1 hi h1 h2 hT h5 (fun r hr => hv r (by simp [hr])) os1 l2 hq (fun o hm => ho o (by simp [hm]))

theorem create_ok (hs : Sane cfg (2 ^ 60)) (h0 : 0 ≤ cfg.minOff) {t0 : Int} (ht : |t0| ≤ 2 ^ 60) :
    ∃ l, create cfg t0 = .ok l ∧ l.on = false ∧ l.turned.last = t0 - near cfg.minOff ∧ l.turned.last ≤ t0 ∧ |l.turned.last| ≤ 2 ^ 61 := by
  have h1 := hs.minOff
  have h2 : 0 ≤ near cfg.minOff := by have := near_mono h0; rwa [near_zero] at this
  have h3 : near cfg.minOff ≤ 2 ^ 60 := by
    have := near_mono (show cfg.minOff ≤ 2 ^ 60 from (le_abs_self _).trans h1)
    have e : near (2 ^ 60) = 2 ^ 60 := by decide +kernel
    omega
  have h4 : i64 (t0 - near cfg.minOff) = .ok (t0 - near cfg.minOff) := by
    apply i64_ok; rw [abs_le] at ht; unfold InI64; omega
  refine ⟨⟨false, Timer.create (t0 - near cfg.minOff)⟩, ?_, rfl, rfl, ?_, ?_⟩
  · simp only [create, msSub_near (h1.trans (by norm_num)), h4, res_bind_ok, res_pure]
  · simp only [Timer.create]; omega
  · simp only [Timer.create]; rw [abs_le] at ht ⊢; omega

/-- The latch before the last reading of a history in which it has held its state `b` since `t1`. -/
theorem held (hs : Sane cfg (2 ^ 60)) (h0 : 0 ≤ cfg.minOff) {t0 t1 t : Int} (hb0 : |t0| ≤ 2 ^ 60) (hbt : |t| ≤ 2 ^ 60)
    {pre mid : List (Int × F)} {v : F} (ht0 : t0 ≤ t1) (hpre : Times t0 pre t1) (hmid : Times t1 (mid ++ [(t, v)]) t) {b : Bool}
    (h1 : response cfg t0 pre = .ok b) {os : List Bool} (h2 : responses cfg t0 (pre ++ mid) = .ok os)
    (h3 : ∀ o ∈ os.drop pre.length, o = b) (h4 : ∀ r ∈ mid, (if b then Arith.lt cfg.high r.2 else Arith.lt r.2 cfg.low) = false) :
    ∃ l : Latch, l.on = b ∧ l.turned.last ≤ t1 ∧ t0 - near cfg.minOff ≤ l.turned.last ∧ (pre = [] → l.turned.last = t0 - near cfg.minOff) ∧
      response cfg t0 (pre ++ mid ++ [(t, v)]) = .ok (next cfg l t (t - near l.turned.last) v).on := by
  have hs' : Sane cfg (2 ^ 62) := ⟨hs.1.trans (by norm_num), hs.2.trans (by norm_num), hs.3.trans (by norm_num), hs.4.trans (by norm_num)⟩
  obtain ⟨l0, hc, hoff, hl0, hl0', hl0b⟩ := create_ok hs h0 hb0
  have ht1 : t1 ≤ t := (hmid.2 (t, v) (by simp)).1
  have hb1 : |t1| ≤ 2 ^ 60 := by rw [abs_le] at *; omega
  obtain ⟨os1, l1, hr1, hlen, hlo, hhi⟩ := run_ok hs' pre l0 t1 hl0b (hb1.trans (by norm_num))
    ⟨hpre.1, fun r hr => ⟨hl0'.trans (hpre.2 r hr).1, (hpre.2 r hr).2⟩⟩
  have hl1 : l1.turned.last ≤ t1 := hhi (.inr (hl0'.trans ht0))
  have hl1b : |l1.turned.last| ≤ 2 ^ 61 := by rw [abs_le] at *; omega
  have hon : l1.on = b := by
    simp only [response, hc, hr1, res_bind_ok, res_pure, Except.ok.injEq] at h1; exact h1
  have hpw := hmid.1
  rw [List.map_append, List.pairwise_append] at hpw
  have hT : Times l1.turned.last mid t := ⟨hpw.1, fun r hr => ⟨hl1.trans (hmid.2 r (by simp [hr])).1, (hmid.2 r (by simp [hr])).2⟩⟩
  obtain ⟨os2, l2, hr2, hlen2, -, -⟩ := run_ok hs' mid l1 t hl1b (hbt.trans (by norm_num)) hT
  have hall : l0.run cfg (pre ++ mid) = .ok (os1 ++ os2, l2) := by
    rw [run_append, hr1, res_bind_ok, hr2, res_bind_ok]
  have hos : os = os1 ++ os2 := by
    simp only [responses, hc, hall, res_bind_ok, res_pure, Except.ok.injEq] at h2; exact h2.symm
  rw [hos, ← hlen, List.drop_left] at h3
  have hq := run_quiet hs' b mid l1 t hl1b (hbt.trans (by norm_num)) hT hon h4 os2 l2 hr2 h3
  subst hq
  refine ⟨l2, hon, hl1, hl0 ▸ hlo, ?_, ?_⟩
  · rintro rfl
    simp only [run, Except.ok.injEq, Prod.mk.injEq] at hr1
    rw [← hr1.2, hl0]
  · simp only [response, hc, res_bind_ok, run_append _ [(t, v)], hall, run, newReading_eq hs' hl1b (hbt.trans (by norm_num)), res_pure]

/-- The latch before a reading. -/
theorem reached (hs : Sane cfg (2 ^ 60)) (h0 : 0 ≤ cfg.minOff) {t0 t : Int} (hb0 : |t0| ≤ 2 ^ 60) (hbt : |t| ≤ 2 ^ 60)
    {rs : List (Int × F)} {v : F} (ht : Times t0 (rs ++ [(t, v)]) t) :
    ∃ l : Latch, response cfg t0 rs = .ok l.on ∧ t0 - near cfg.minOff ≤ l.turned.last ∧ l.turned.last ≤ t ∧
      response cfg t0 (rs ++ [(t, v)]) = .ok (next cfg l t (t - near l.turned.last) v).on := by
  have hs' : Sane cfg (2 ^ 62) := ⟨hs.1.trans (by norm_num), hs.2.trans (by norm_num), hs.3.trans (by norm_num), hs.4.trans (by norm_num)⟩
  obtain ⟨l0, hc, hoff, hl0, hl0', hl0b⟩ := create_ok hs h0 hb0
  have ht1 : t0 ≤ t := (ht.2 (t, v) (by simp)).1
  have hpw := ht.1
  rw [List.map_append, List.pairwise_append] at hpw
  obtain ⟨os1, l1, hr1, hlen, hlo, hhi⟩ := run_ok hs' rs l0 t hl0b (hbt.trans (by norm_num))
    ⟨hpw.1, fun r hr => ⟨hl0'.trans (ht.2 r (by simp [hr])).1, (ht.2 r (by simp [hr])).2⟩⟩
  have hl1 : l1.turned.last ≤ t := hhi (.inr (hl0'.trans ht1))
  have hl1b : |l1.turned.last| ≤ 2 ^ 61 := by rw [abs_le] at *; omega
  refine ⟨l1, by simp only [response, hc, hr1, res_bind_ok, res_pure], hl0 ▸ hlo, hl1, ?_⟩
  simp only [response, hc, res_bind_ok, run_append _ [(t, v)], hr1, run, newReading_eq hs' hl1b (hbt.trans (by norm_num)), res_pure]

/-- The latch before a reading, in a history in which it switched at `s`. -/
theorem reached_since (hs : Sane cfg (2 ^ 60)) (h0 : 0 ≤ cfg.minOff) {t0 s t : Int} (hb0 : |t0| ≤ 2 ^ 60) (hbt : |t| ≤ 2 ^ 60)
    {pre mid : List (Int × F)} {w v : F} (ht : Times t0 (pre ++ [(s, w)] ++ mid ++ [(t, v)]) t) {b : Bool}
    (h1 : response cfg t0 pre = .ok (!b)) (h2 : response cfg t0 (pre ++ [(s, w)]) = .ok b) :
    ∃ l : Latch, response cfg t0 (pre ++ [(s, w)] ++ mid) = .ok l.on ∧ s ≤ l.turned.last ∧ l.turned.last ≤ t ∧
      response cfg t0 (pre ++ [(s, w)] ++ mid ++ [(t, v)]) = .ok (next cfg l t (t - near l.turned.last) v).on := by
  have hs' : Sane cfg (2 ^ 62) := ⟨hs.1.trans (by norm_num), hs.2.trans (by norm_num), hs.3.trans (by norm_num), hs.4.trans (by norm_num)⟩
  obtain ⟨l0, hc, hoff, hl0, hl0', hl0b⟩ := create_ok hs h0 hb0
  have hsr := ht.2 (s, w) (by simp)
  simp only at hsr
  have hsb : |s| ≤ 2 ^ 60 := by rw [abs_le] at *; omega
  have hpw := ht.1
  simp only [List.map_append, List.pairwise_append, List.append_assoc, List.mem_append] at hpw
  obtain ⟨os1, l1, hr1, hlen, hlo, hhi⟩ := run_ok hs' pre l0 s hl0b (hsb.trans (by norm_num))
    ⟨hpw.1, fun r hr => ⟨hl0'.trans (ht.2 r (by simp [hr])).1, hpw.2.2 r.1 (List.mem_map_of_mem hr) s (by simp)⟩⟩
  have hl1 : l1.turned.last ≤ s := hhi (.inr (hl0'.trans hsr.1))
  have hl1b : |l1.turned.last| ≤ 2 ^ 61 := by rw [abs_le] at *; omega
  have hon : l1.on = !b := by simp only [response, hc, hr1, res_bind_ok, res_pure, Except.ok.injEq] at h1; exact h1
  have hq := newReading_eq (cfg := cfg) (v := w) hs' hl1b (hsb.trans (by norm_num))
  have hl2 : (next cfg l1 s (s - near l1.turned.last) w).on = b := by
    simp only [response, hc, res_bind_ok, run_append _ [(s, w)], hr1, run, hq, res_pure, Except.ok.injEq] at h2; exact h2
  have hlast := (next_change (cfg := cfg) (l := l1) (now := s) (v := w) (s := s - near l1.turned.last) (by rw [hl2, hon]; cases b <;> simp)).2
  generalize hl2e : next cfg l1 s (s - near l1.turned.last) w = l2 at *
  have hall : l0.run cfg (pre ++ [(s, w)]) = .ok (os1 ++ [l2.on], l2) := by
    simp only [run_append _ [(s, w)], hr1, run, hq, res_pure, res_bind_ok]
  have hl2b : |l2.turned.last| ≤ 2 ^ 61 := by rw [hlast]; exact hsb.trans (by norm_num)
  obtain ⟨os3, l3, hr3, hlen3, hlo3, hhi3⟩ := run_ok hs' mid l2 t hl2b (hbt.trans (by norm_num))
    ⟨hpw.2.1.2.1.1, fun r hr => ⟨hlast ▸ hpw.2.1.2.2 s (by simp) r.1 (.inl (List.mem_map_of_mem hr)), (ht.2 r (by simp [hr])).2⟩⟩
  have hl3 : l3.turned.last ≤ t := hhi3 (.inr (hlast ▸ hsr.2))
  have hl3b : |l3.turned.last| ≤ 2 ^ 61 := by rw [abs_le] at *; omega
  have hall3 : l0.run cfg (pre ++ [(s, w)] ++ mid) = .ok (os1 ++ [l2.on] ++ os3, l3) := by rw [run_append, hall, res_bind_ok, hr3, res_bind_ok]
  refine ⟨l3, by simp only [response, hc, hall3, res_bind_ok, res_pure], hlast ▸ hlo3, hl3, ?_⟩
  simp only [response, hc, res_bind_ok, run_append _ [(t, v)], hall3, run, newReading_eq hs' hl3b (hbt.trans (by norm_num)), res_pure]

end Latch
end Spine

import Verif.Props.FilterAccuracy
/-!
# Property C175: larger samples give larger filtered values
-/

namespace Spine

open F32 Fl FilterAccuracy

section
variable {F : Type} [Arith F]

/-- Two series of numbers, the first nowhere above the second (`up`), or nowhere below it. -/
def Ordered (up : Bool) (xs ys : List F) : Prop := List.Forall₂ (fun x y => if up then Arith.le x y = true else Arith.le y x = true) xs ys

/-- Two copies of a filter, given two series of samples one of which is nowhere above the other, return series of which the same can be said (`up`), or the opposite. -/
def Filter.Follows (up : Bool) (f : Filter F) : Prop :=
  ∀ {xs ys zs ws : List F} {f1 f2 : Filter F}, Ordered true xs ys → f.Feeds xs f1 zs → f.Feeds ys f2 ws → Ordered up zs ws

end

namespace FilterOrder

section
variable {F : Type} [Arith F]

theorem flip {up : Bool} {xs ys : List F} (h : Ordered up xs ys) : Ordered (!up) ys xs := by
  unfold Ordered at *
  induction h with
  | nil => exact .nil
  | cons h _ ih => exact .cons (by cases up <;> simpa using h) ih

/-- A filter that follows its samples also does so downwards. -/
theorem follows_any {up v : Bool} {f f1 f2 : Filter F} (h : f.Follows up) {xs ys zs ws : List F} (ho : Ordered v xs ys) (h1 : f.Feeds xs f1 zs) (h2 : f.Feeds ys f2 ws) :
    Ordered (v == up) zs ws := by
  cases v with
  | true => simpa using h ho h1 h2
  | false =>
    have := flip (h (flip ho) h2 h1)
    simpa using this

theorem through {fs : List (Filter F)} {ups : List Bool} (h : List.Forall₂ (fun f up => f.Follows up) fs ups) :
    ∀ {v : Bool} {xs ys zs ws : List F} {gs hs : List (Filter F)}, Ordered v xs ys → Through fs xs gs zs → Through fs ys hs ws → Ordered (v == decide (ups.count false % 2 = 0)) zs ws := by
  induction h with
  | nil =>
    intro v xs ys zs ws gs hs ho h1 h2
    cases h1; cases h2
    simpa using ho
  | @cons f up fs ups hf _ ih =>
    intro v xs ys zs ws gs hs ho h1 h2
    cases h1 with
    | cons a b => cases h2 with
      | cons c d =>
        have := ih (follows_any hf ho a c) b d
        have hp : decide ((List.count false ups + 1) % 2 = 0) = !decide (List.count false ups % 2 = 0) := by
          rw [← decide_not]; congr 1; exact propext (by omega)
        cases up with
        | true => rw [List.count_cons_of_ne (by decide)]; cases v <;> exact this
        | false =>
          rw [List.count_cons_self, hp]
          revert this
          cases v <;> cases decide (List.count false ups % 2 = 0) <;> exact id

/-- A filter without memory follows its samples if its function does. -/
theorem follows_stateless {up : Bool} {f : Filter F} {P : F → F → Prop} (hf : ∀ s x s' y, f.step s x = .ok (s', some y) → P x y)
    (hP : ∀ x y x' y', Arith.le x x' = true → P x y → P x' y' → if up then Arith.le y y' = true else Arith.le y' y = true) : f.Follows up := by
  have key : ∀ {g : Filter F}, (∀ s x s' y, g.step s x = .ok (s', some y) → P x y) → ∀ {xs g1 zs}, g.Feeds xs g1 zs → List.Forall₂ P xs zs := by
    intro g hg xs g1 zs h
    induction h with
    | nil => exact .nil
    | @cons g g1 g2 x y xs ys h1 h2 ih =>
      unfold Filter.take at h1
      split at h1
      · cases h1
      · rename_i s y' he
        cases h1
        exact .cons (hg _ _ _ _ he) (ih hg)
  intro xs ys zs ws f1 f2 ho h1 h2
  have k1 := key hf h1
  have k2 := key hf h2
  clear h1 h2
  induction ho generalizing zs ws with
  | nil => cases k1; cases k2; exact .nil
  | cons h _ ih => cases k1 with
    | cons a b => cases k2 with
      | cons c d => exact .cons (hP _ _ _ _ (by simpa using h) a c) (ih b d)

end

/-! ### Single precision -/

theorem le_of_not_lt {x y : Fl} (hx : x ≠ .nan) (hy : y ≠ .nan) (h : Fl.lt y x = false) : Fl.le x y = true := by
  cases x <;> cases y <;> simp_all [Fl.lt, Fl.le]
  next s t => cases s <;> cases t <;> simp_all

theorem ofRat_ne_nan (q : Rat) : Fl.ofRat q ≠ .nan := by
  unfold Fl.ofRat Fl.round
  split <;> simp

/-- The sum of two finite numbers, as rounded: zero of either sign if it is zero. -/
theorem add_num (s t : Bool) (m n : Rat) : ∃ z, Fl.add (.num s m) (.num t n) = z ∧ ((z = Fl.ofRat (Fl.val (.num s m) + Fl.val (.num t n))) ∨
    (Fl.val (.num s m) + Fl.val (.num t n) = 0 ∧ ∃ u, z = .num u 0)) := by
  refine ⟨_, rfl, ?_⟩
  have e : Fl.add (num s m) (num t n) = if val (num s m) + val (num t n) = 0 then num (s && t) 0 else Fl.ofRat (val (num s m) + val (num t n)) := rfl
  rw [e]
  split
  · exact .inr ⟨by assumption, _, rfl⟩
  · exact .inl rfl

theorem ofRat_zero : Fl.ofRat 0 = .num false 0 := by decide +kernel

theorem le_zero_left {u : Bool} {x : Fl} : Fl.le (.num u 0) x = Fl.le (.num false 0) x := by
  cases x with
  | num => cases u <;> simp [Fl.le, Fl.val]
  | _ => simp [Fl.le]

theorem le_zero_right {u : Bool} {x : Fl} : Fl.le x (.num u 0) = Fl.le x (.num false 0) := by
  cases x with
  | num => cases u <;> simp [Fl.le, Fl.val]
  | _ => simp [Fl.le]

/-- Addition of a finite number is monotone, also where it overflows. -/
theorem add_mono {x y a : Fl} (ha : a.fin = true) (h : Fl.le x y = true) : Fl.le (Fl.add x a) (Fl.add y a) = true := by
  cases a with
  | nan => simp [Fl.fin] at ha
  | inf => simp [Fl.fin] at ha
  | num t n =>
    have nn : ∀ s m, Fl.add (.num s m) (.num t n) ≠ .nan := by
      intro s m
      obtain ⟨z, e, h | ⟨-, u, h⟩⟩ := add_num s t m n
      · rw [e, h]; exact ofRat_ne_nan _
      · rw [e, h]; simp
    cases x with
    | nan => simp [Fl.le] at h
    | inf s =>
      cases y with
      | nan => simp [Fl.le] at h
      | inf s' => exact h
      | num s' m' =>
        have hs : s = true := h
        subst hs
        change Fl.le (.inf true) _ = true
        have := nn s' m'
        revert this
        cases Fl.add (.num s' m') (.num t n) <;> simp [Fl.le]
    | num s m =>
      cases y with
      | nan => simp [Fl.le] at h
      | inf s' =>
        have hs : s' = false := by simpa [Fl.le] using h
        subst hs
        change Fl.le _ (.inf false) = true
        have := nn s m
        revert this
        cases Fl.add (.num s m) (.num t n) <;> simp [Fl.le]
      | num s' m' =>
        have hv : Fl.val (.num s m) ≤ Fl.val (.num s' m') := by simpa [Fl.le] using h
        have hm : Fl.le (Fl.ofRat (Fl.val (.num s m) + Fl.val (.num t n))) (Fl.ofRat (Fl.val (.num s' m') + Fl.val (.num t n))) = true :=
          le_of_not_lt (ofRat_ne_nan _) (ofRat_ne_nan _) (Fl.ofRat_mono (by linarith))
        obtain ⟨z, e, hz⟩ := add_num s t m n
        obtain ⟨z', e', hz'⟩ := add_num s' t m' n
        rw [e, e']
        rcases hz with hz | ⟨hz, u, hu⟩ <;> rcases hz' with hz' | ⟨hz', u', hu'⟩
        · rw [hz, hz']; exact hm
        · rw [hz', ofRat_zero] at hm; rw [hz, hu', le_zero_right]; exact hm
        · rw [hz, ofRat_zero] at hm; rw [hz', hu, le_zero_left]; exact hm
        · rw [hu, hu', le_zero_left, le_zero_right]; decide

theorem neg_le {x y : Fl} (h : Fl.le x y = true) : Fl.le y.neg x.neg = true := by
  cases x <;> cases y <;> simp_all [Fl.le, Fl.neg]
  · next s t => cases s <;> cases t <;> simp_all
  · next s m t n => cases s <;> cases t <;> simp_all [Fl.val] <;> linarith

theorem sub_mono {x y a : Fl} (ha : a.fin = true) (h : Fl.le x y = true) : Fl.le (Fl.sub x a) (Fl.sub y a) = true :=
  add_mono (by rw [(neg_val a).2]; exact ha) h

theorem add_comm_fl (x y : Fl) : Fl.add x y = Fl.add y x := by
  cases x <;> cases y <;> simp only [Fl.add]
  · next s t => cases s <;> cases t <;> rfl
  · next s m t n => rw [add_comm, Bool.and_comm]

theorem sub_anti {x y a : Fl} (ha : a.fin = true) (h : Fl.le x y = true) : Fl.le (Fl.sub a y) (Fl.sub a x) = true := by
  unfold Fl.sub
  rw [add_comm_fl a, add_comm_fl a]
  exact add_mono ha (neg_le h)

/-- Where `MappedRange` puts a sample in its input range; a sample beyond it counts as the limit. -/
theorem map_cut {c : MapCfg Fl} (g1 : c.inLo.fin = true) (g2 : c.inHi.fin = true) (hlt : c.inLo.val < c.inHi.val) {x y : Fl} (hx : x ≠ .nan) (h : c.map x = .ok (some y)) :
    ∃ z : Fl, z.fin = true ∧ c.inLo.val ≤ z.val ∧ z.val ≤ c.inHi.val ∧ (x.fin = true → z.val = max c.inLo.val (min c.inHi.val x.val)) ∧ (x = .inf true → z = c.inLo) ∧
      (x = .inf false → z = c.inHi) ∧ y = Fl.add c.outLo (Fl.mul (Fl.div (Fl.sub z c.inLo) (Fl.sub c.inHi c.inLo)) (Fl.sub c.outHi c.outLo)) := by
  have l1 : Arith.lt c.inHi c.inLo = false := by
    rw [Bool.eq_false_iff]; intro hc
    have := (lt_iff g2 g1).mp hc
    linarith
  have hr : ∀ v : Rat, c.inLo.val ≤ max c.inLo.val (min c.inHi.val v) ∧ max c.inLo.val (min c.inHi.val v) ≤ c.inHi.val :=
    fun v => ⟨le_max_left _ _, max_le hlt.le (min_le_left _ _)⟩
  cases x with
  | nan => exact absurd rfl hx
  | inf s =>
    cases s with
    | true =>
      have e1 : Arith.lt (.inf true) c.inLo = true := by revert g1; cases c.inLo <;> simp [Fl.fin, Arith.lt, Fl.lt]
      refine ⟨c.inLo, g1, le_refl _, hlt.le, by simp [Fl.fin], by simp, by simp, ?_⟩
      simp only [MapCfg.map, e1, Bool.true_or, if_true, fclamp, l1, Bool.false_eq_true, if_false, res_bind_ok, res_pure] at h
      cases ht : c.throws
      · rw [ht] at h; simp only [Bool.false_eq_true, if_false] at h; cases h; rfl
      · rw [ht] at h; simp only [if_true] at h; cases h
    | false =>
      have e1 : Arith.lt (.inf false) c.inLo = false := by revert g1; cases c.inLo <;> simp [Fl.fin, Arith.lt, Fl.lt]
      have e2 : Arith.lt c.inHi (.inf false) = true := by revert g2; cases c.inHi <;> simp [Fl.fin, Arith.lt, Fl.lt]
      refine ⟨c.inHi, g2, hlt.le, le_refl _, by simp [Fl.fin], by simp, by simp, ?_⟩
      simp only [MapCfg.map, e1, e2, Bool.or_true, if_true, fclamp, l1, Bool.false_eq_true, if_false, res_bind_ok, res_pure] at h
      cases ht : c.throws
      · rw [ht] at h; simp only [Bool.false_eq_true, if_false] at h; cases h; rfl
      · rw [ht] at h; simp only [if_true] at h; cases h
  | num s m =>
    cases ht : c.throws with
    | false =>
      obtain ⟨z, z1, z2, -, z3⟩ := map_ieee g1 g2 hlt ht (x := .num s m) rfl
      rw [z3] at h
      cases h
      exact ⟨z, z1, by rw [z2]; exact (hr _).1, by rw [z2]; exact (hr _).2, fun _ => z2, by simp, by simp, rfl⟩
    | true =>
      simp only [MapCfg.map, ht, if_true] at h
      split at h
      · cases h
      · rename_i hn
        cases h
        simp only [Bool.or_eq_true, not_or, Bool.not_eq_true] at hn
        have k1 : ¬ (Fl.num s m).val < c.inLo.val := fun hc => by
          have := (lt_iff (x := .num s m) rfl g1).mpr hc
          rw [show Fl.lt (.num s m) c.inLo = false from hn.1] at this; cases this
        have k2 : ¬ c.inHi.val < (Fl.num s m).val := fun hc => by
          have := (lt_iff g2 (y := .num s m) rfl).mpr hc
          rw [show Fl.lt c.inHi (.num s m) = false from hn.2] at this; cases this
        exact ⟨.num s m, rfl, not_lt.mp k1, not_lt.mp k2, fun _ => by rw [min_eq_right (not_lt.mp k2), max_eq_right (not_lt.mp k1)], by simp, by simp, rfl⟩

theorem le_ne_nan {x y : Fl} (h : Fl.le x y = true) : x ≠ .nan ∧ y ≠ .nan := by
  cases x <;> cases y <;> simp_all [Fl.le]

/-- `MappedRange` in single precision: larger samples give larger results, or smaller ones if the output range is the other way round. -/
theorem map_mono {c : MapCfg Fl} (h : ∀ z ∈ [c.inLo, c.inHi, c.outLo, c.outHi], z.fin = true ∧ z.Ok ∧ |z.val| ≤ pow2 125) (hlt : Fl.lt c.inLo c.inHi = true)
    {x x' y y' : Fl} (hle : Fl.le x x' = true) (e : c.map x = .ok (some y)) (e' : c.map x' = .ok (some y')) :
    (Fl.le c.outLo c.outHi = true → Fl.le y y' = true) ∧ (Fl.le c.outHi c.outLo = true → Fl.le y' y = true) := by
  have g1 := (h c.inLo (by simp)).1
  have g2 := (h c.inHi (by simp)).1
  have g3 := (h c.outLo (by simp)).1
  have g4 := (h c.outHi (by simp)).1
  rw [lt_iff g1 g2] at hlt
  obtain ⟨n1, n2⟩ := le_ne_nan hle
  obtain ⟨z, z1, z2, z3, z4, z5, z6, rfl⟩ := map_cut g1 g2 hlt n1 e
  obtain ⟨z', z1', z2', z3', z4', z5', z6', rfl⟩ := map_cut g1 g2 hlt n2 e'
  have hz : z.val ≤ z'.val := by
    cases x with
    | nan => exact absurd rfl n1
    | inf s =>
      cases s with
      | true => rw [z5 rfl]; exact z2'
      | false =>
        cases x' with
        | nan => exact absurd rfl n2
        | inf t =>
          cases t with
          | true => simp [Fl.le] at hle
          | false => rw [z6 rfl, z6' rfl]
        | num t n => simp [Fl.le] at hle
    | num s m =>
      cases x' with
      | nan => exact absurd rfl n2
      | inf t =>
        cases t with
        | true => simp [Fl.le] at hle
        | false => rw [z6' rfl]; exact z3
      | num t n =>
        rw [z4 rfl, z4' rfl]
        exact max_le_max (le_refl _) (min_le_min (le_refl _) ((le_iff rfl rfl).mp hle))
  obtain ⟨s1, s2, s3⟩ := scale_val h z1 hlt z2 z3
  obtain ⟨s1', s2', -⟩ := scale_val h z1' hlt z2' z3'
  have hq : rnd (rnd (z.val - c.inLo.val) / rnd (c.inHi.val - c.inLo.val)) ≤ rnd (rnd (z'.val - c.inLo.val) / rnd (c.inHi.val - c.inLo.val)) :=
    rnd_mono (div_le_div_of_nonneg_right (rnd_mono (by linarith)) s3.le)
  constructor
  · intro ho
    rw [le_iff g3 g4] at ho
    rw [le_iff s1 s1', s2, s2']
    have hw : 0 ≤ rnd (c.outHi.val - c.outLo.val) := rnd_nonneg (by linarith)
    have := rnd_mono (mul_le_mul_of_nonneg_right hq hw)
    exact rnd_mono (by linarith)
  · intro ho
    rw [le_iff g4 g3] at ho
    rw [le_iff s1' s1, s2, s2']
    have hw : rnd (c.outHi.val - c.outLo.val) ≤ 0 := by
      have := rnd_mono (show c.outHi.val - c.outLo.val ≤ 0 by linarith)
      rwa [F32.rnd_zero] at this
    have := rnd_mono (mul_le_mul_of_nonpos_right hq hw)
    exact rnd_mono (by linarith)

end FilterOrder

open FilterOrder

/-- **C175**: a stack of filters each of which follows its samples, upwards or downwards, follows its samples too: upwards if the number of filters that go downwards is even. -/
theorem C175_stack {F : Type} [Arith F] {b : Build} {fs : List (Filter F)} {ups : List Bool} (h : List.Forall₂ (fun f up => f.Follows up) fs ups) {xs ys zs ws : List F}
    {st1 st2 : FilterStack F} (ho : Ordered true xs ys) (h1 : FilterStack.Feeds b (fs.map some) xs st1 zs) (h2 : FilterStack.Feeds b (fs.map some) ys st2 ws) :
    Ordered (decide (ups.count false % 2 = 0)) zs ws := by
  obtain ⟨gs, rfl, a⟩ := (C51_composition _ _ _ _).mp h1
  obtain ⟨hs, rfl, c⟩ := (C51_composition _ _ _ _).mp h2
  simpa using through h ho a c

/-- **C175**: a `Passthrough` follows its samples. -/
theorem C175_passthrough {F : Type} [Arith F] : (Filter.passthrough (F := F)).Follows true :=
  follows_stateless (P := fun x y => y = x) (fun s x s' y h => by
    simp only [Filter.passthrough] at h
    cases h; rfl) (by rintro x y x' y' h rfl rfl; simpa using h)

/-- **C175**: in single precision, a `MappedRange` with limits of at most 2^125 follows its samples, upwards or downwards as its output range goes; also samples beyond the input range and infinite
ones. -/
theorem C175_mapped {c : MapCfg Fl} (h : ∀ z ∈ [c.inLo, c.inHi, c.outLo, c.outHi], z.fin = true ∧ z.Ok ∧ |z.val| ≤ pow2 125) (hlt : Fl.lt c.inLo c.inHi = true) :
    (Fl.le c.outLo c.outHi = true → (Filter.mapped c).Follows true) ∧ (Fl.le c.outHi c.outLo = true → (Filter.mapped c).Follows false) := by
  have hP : ∀ (s : (Filter.mapped c).State) x s' y, (Filter.mapped c).step s x = .ok (s', some y) → c.map x = .ok (some y) := by
    intro s x s' y e
    change (c.map x >>= fun y => pure (y.getD s, y)) = _ at e
    cases hm : c.map x with
    | error f => rw [hm] at e; cases e
    | ok v =>
      rw [hm] at e
      simp only [res_bind_ok, res_pure] at e
      injection e with e
      injection e with _ e
      rw [e]
  exact ⟨fun ho => follows_stateless hP fun x y x' y' hx e e' => by rw [if_pos rfl]; exact (map_mono h hlt hx e e').1 ho,
    fun ho => follows_stateless hP fun x y x' y' hx e e' => by rw [if_neg (by decide)]; exact (map_mono h hlt hx e e').2 ho⟩

/-- **C175**: in single precision, an `Invert` with finite limits follows its samples downwards, also beyond its limits in a release build, and where the difference overflows. -/
theorem C175_invert {b : Build} {lo hi : Fl} (h1 : lo.fin = true) (h2 : hi.fin = true) : (Filter.inverter b lo hi).Follows false := by
  refine follows_stateless (P := fun x y => y = Fl.sub hi (Fl.sub x lo)) (fun s x s' y e => ?_) ?_
  · change (invert b lo hi x >>= fun y => pure (y, some y)) = _ at e
    unfold invert at e
    cases hm : spnAssert b (Arith.le lo x && Arith.le x hi) with
    | error f => rw [hm] at e; cases e
    | ok v =>
      rw [hm] at e
      simp only [res_bind_ok, res_pure] at e
      injection e with e
      injection e with _ e
      injection e with e
      exact e.symm
  · rintro x y x' y' hx rfl rfl
    rw [if_neg (by decide)]
    exact sub_anti h2 (sub_mono h1 hx)

/-- **C175**, part: in exact arithmetic an `EWMA` with a frame of at least one sample follows its samples: an average of larger samples is larger, at every moment. In single precision
this fails (`C175_average_counterexample`). -/
theorem C175_average_partial {k : Rat} (hk : 1 ≤ k) : (Filter.ewma k).Follows true := by
  have key : ∀ {xs ys : List Rat}, Ordered true xs ys → ∀ (s t : Ewma Rat) {zs ws : List Rat} {f1 f2 : Filter Rat}, s.n = t.n → (s.n = 0 ∨ 1 ≤ s.n ∧ s.value ≤ t.value) →
      Filter.Feeds { Filter.ewma k with state := s } xs f1 zs → Filter.Feeds { Filter.ewma k with state := t } ys f2 ws → Ordered true zs ws := by
    intro xs ys ho
    induction ho with
    | nil => intro s t zs ws f1 f2 _ _ h1 h2; cases h1; cases h2; exact .nil
    | @cons x y xs ys hxy _ ih =>
      intro s t zs ws f1 f2 hn hv h1 h2
      have hxy : x ≤ y := by simpa [Arith.le] using hxy
      cases h1 with
      | cons a c => cases h2 with
        | cons d e =>
          simp only [Filter.take, Filter.ewma, Except.ok.injEq, Prod.mk.injEq, Option.some.injEq] at a d
          obtain ⟨rfl, rfl⟩ := a
          obtain ⟨rfl, rfl⟩ := d
          have hle : (s.sample k x).value ≤ (t.sample k y).value := by
            rcases hv with h0 | ⟨h1, h2⟩
            · have e1 : (s.sample k x).value = x := by simp [Ewma.sample, feq, fzero, Arith.le, Arith.ofRat, h0]
              have e2 : (t.sample k y).value = y := by simp [Ewma.sample, feq, fzero, Arith.le, Arith.ofRat, ← hn, h0]
              rw [e1, e2]; exact hxy
            · have hs : feq s.n (fzero : Rat) = false := by
                have : Arith.le s.n (fzero : Rat) = false := decide_eq_false (by simp only [fzero, Arith.ofRat]; linarith)
                simp [feq, this]
              have e1 : (s.sample k x).value = s.value + (x - s.value) / fmin (s.n + 1) k := by simp [Ewma.sample, hs, Arith.add, Arith.sub, Arith.div, Arith.ofRat]
              have e2 : (t.sample k y).value = t.value + (y - t.value) / fmin (s.n + 1) k := by simp [Ewma.sample, ← hn, hs, Arith.add, Arith.sub, Arith.div, Arith.ofRat]
              rw [e1, e2]
              have hm : 1 ≤ fmin (s.n + 1) k := by unfold fmin; split <;> linarith
              generalize fmin (s.n + 1) k = m at hm
              have hm0 : 0 < m := by linarith
              have e3 : ∀ v x : Rat, v + (x - v) / m = v * ((m - 1) / m) + x / m := by intro v x; field_simp; ring
              rw [e3, e3]
              have := mul_le_mul_of_nonneg_right h2 (show 0 ≤ (m - 1) / m from div_nonneg (by linarith) hm0.le)
              have := div_le_div_of_nonneg_right hxy hm0.le
              linarith
          have hn1 : (s.sample k x).n = s.n + 1 := by unfold Ewma.sample; dsimp only; split <;> rfl
          have hn2 : (t.sample k y).n = t.n + 1 := by unfold Ewma.sample; dsimp only; split <;> rfl
          refine .cons (by simpa [Arith.le] using hle) (ih _ _ (by rw [hn1, hn2, hn]) (.inr ⟨?_, hle⟩) c e)
          rw [hn1]
          rcases hv with h0 | ⟨h1, -⟩ <;> linarith
  intro xs ys zs ws f1 f2 ho h1 h2
  exact key ho Ewma.create Ewma.create rfl (.inl rfl) h1 h2

/-- **C175**, part: in exact arithmetic a `MappedRange` follows its samples, upwards or downwards as its output range goes. -/
theorem C175_mapped_exact {c : MapCfg Rat} (hlt : c.inLo < c.inHi) :
    (c.outLo ≤ c.outHi → (Filter.mapped c).Follows true) ∧ (c.outHi ≤ c.outLo → (Filter.mapped c).Follows false) := by
  have hP : ∀ (s : (Filter.mapped c).State) x s' y, (Filter.mapped c).step s x = .ok (s', some y) → c.map x = .ok (some y) := by
    intro s x s' y e
    change (c.map x >>= fun y => pure (y.getD s, y)) = _ at e
    cases hm : c.map x with
    | error f => rw [hm] at e; cases e
    | ok v =>
      rw [hm] at e
      simp only [res_bind_ok, res_pure] at e
      injection e with e
      injection e with _ e
      rw [e]
  refine ⟨fun ho => follows_stateless hP fun x y x' y' hx e e' => ?_, fun ho => follows_stateless hP fun x y x' y' hx e e' => ?_⟩
  · have := C50_monotone hlt ho (by simpa [Arith.le] using hx) e e'
    simpa [Arith.le] using this
  · have hx : x ≤ x' := by simpa [Arith.le] using hx
    rw [map_rat hlt] at e e'
    split at e <;> cases e
    split at e' <;> cases e'
    have h0 : 0 < c.inHi - c.inLo := by linarith
    have hm : max c.inLo (min c.inHi x) ≤ max c.inLo (min c.inHi x') := max_le_max (le_refl _) (min_le_min (le_refl _) hx)
    have hd : (max c.inLo (min c.inHi x) - c.inLo) / (c.inHi - c.inLo) ≤ (max c.inLo (min c.inHi x') - c.inLo) / (c.inHi - c.inLo) :=
      div_le_div_of_nonneg_right (by linarith) h0.le
    have := mul_le_mul_of_nonpos_right hd (show c.outHi - c.outLo ≤ 0 by linarith)
    rw [if_neg (by decide)]
    simp only [Arith.le, decide_eq_true_eq]
    linarith

/-- **C175**, part: in exact arithmetic an `Invert` follows its samples downwards. -/
theorem C175_invert_exact {b : Build} {lo hi : Rat} : (Filter.inverter b lo hi).Follows false := by
  refine follows_stateless (P := fun x y => y = hi - (x - lo)) (fun s x s' y e => ?_) ?_
  · change (invert b lo hi x >>= fun y => pure (y, some y)) = _ at e
    unfold invert at e
    cases hm : spnAssert b (Arith.le lo x && Arith.le x hi) with
    | error f => rw [hm] at e; cases e
    | ok v =>
      rw [hm] at e
      simp only [res_bind_ok, res_pure] at e
      injection e with e
      injection e with _ e
      injection e with e
      exact e.symm
  · rintro x y x' y' hx rfl rfl
    have hx : x ≤ x' := by simpa [Arith.le] using hx
    rw [if_neg (by decide)]
    simp only [Arith.le, decide_eq_true_eq]
    linarith

/-- An average over ten samples, scaled from 0..10 to 100..0 and inverted in 0..100, follows its samples upwards: two filters go downwards. -/
example : List.Forall₂ (fun f up => Filter.Follows up f)
    [Filter.ewma (10 : Rat), Filter.mapped { inLo := 0, inHi := 10, outLo := 100, outHi := 0, throws := false }, Filter.inverter .debug 0 100] [true, false, false] ∧
    decide ([true, false, false].count false % 2 = 0) = true :=
  ⟨.cons (C175_average_partial (by norm_num)) (.cons ((C175_mapped_exact (by norm_num)).2 (by norm_num)) (.cons C175_invert_exact .nil)), by decide⟩

/-- Such a stack in single precision, without the average; what it returns for two series of samples. -/
example :
    let out (x : Fl) : Option Fl := match FilterStack.take .debug [some (Filter.mapped { inLo := Fl.ofRat 0, inHi := Fl.ofRat 10, outLo := Fl.ofRat 100, outHi := Fl.ofRat 0, throws := false }),
      some (Filter.inverter .debug (Fl.ofRat 0) (Fl.ofRat 100))] x with
      | .ok (_, z) => z
      | .error _ => none
    out (Fl.ofRat 3) = some (Fl.ofRat 30) ∧ out (.inf false) = some (Fl.ofRat 100) := by decide +kernel

/-- **C175** is false for an `EWMA` in single precision: of two averages over two or more samples, the one of the smaller samples is larger by a whole unit. -/
theorem C175_average_counterexample :
    let xs : List Fl := [Fl.ofRat (-1 - 1 / 2 ^ 23), Fl.ofRat (2 ^ 24)]
    let ys : List Fl := [Fl.ofRat (-1), Fl.ofRat (2 ^ 24)]
    Ordered true xs ys ∧ ((Ewma.create.samples (Fl.ofRat 10) xs).value = Fl.ofRat (2 ^ 23)) ∧ ((Ewma.create.samples (Fl.ofRat 10) ys).value = Fl.ofRat (2 ^ 23 - 1)) := by
  refine ⟨.cons (by decide +kernel) (.cons (by decide +kernel) .nil), by decide +kernel, by decide +kernel⟩

/-- **C175** is false for a `BandPass`: a larger sample can be refused. -/
theorem C175_band_counterexample :
    let c : BandCfg Rat := { relative := true, width := 10, offset := 0, limit := 10, throws := true }
    Ordered true [0, 5] ([0, 50] : List Rat) ∧ ((Band.create c).samples c [0, 5]).map Prod.fst = .ok [(true, 0), (true, 5)] ∧
    ((Band.create c).samples c [0, 50]).map Prod.fst = .ok [(true, 0), (true, 0)] := by
  refine ⟨.cons (by decide +kernel) (.cons (by decide +kernel) .nil), by decide +kernel, by decide +kernel⟩

end Spine

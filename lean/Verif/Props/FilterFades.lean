import Verif.Props.FilterUnits
import Verif.Props.FilterReset
import Mathlib.Algebra.Order.Group.MinMax
/-!
# C186: filters forget old samples
-/

namespace Spine

/-- A sequence comes and stays as close to 0 as one likes. -/
def Vanishes (d : Nat → Rat) : Prop := ∀ ε : Rat, 0 < ε → ∃ N, ∀ n, N ≤ n → |d n| < ε

theorem Vanishes.mul {d e : Nat → Rat} {q : Rat} (h : Vanishes d) (he : ∀ n, |e n| ≤ q * |d n|) : Vanishes e := by
  intro ε hε
  obtain ⟨N, hN⟩ := h (ε / (|q| + 1)) (by positivity)
  refine ⟨N, fun n hn => (he n).trans_lt ?_⟩
  have h1 := hN n hn
  rw [lt_div_iff₀ (by positivity)] at h1
  have h2 : q * |d n| ≤ |q| * |d n| := mul_le_mul_of_nonneg_right (le_abs_self q) (abs_nonneg _)
  have h3 := abs_nonneg (d n)
  nlinarith

/-- What a contraction makes of inputs that vanish. -/
theorem vanishes_feedback {d e : Nat → Rat} {r q : Rat} {M : Nat} (hr : |r| < 1) (he : Vanishes e) (hd : ∀ n, M ≤ n → d (n + 1) = r * d n + q * e (n + 1)) : Vanishes d := by
  intro ε hε
  have h1 : 0 < 1 - |r| := by linarith
  obtain ⟨N, hN⟩ := (he.mul (e := fun n => q * e n) (q := |q|) fun n => (abs_mul _ _).le) ((1 - |r|) * (ε / 2)) (by positivity)
  have hb : ∀ m, |d (max M N + m)| ≤ |r| ^ m * |d (max M N)| + ε / 2 := by
    intro m
    induction m with
    | zero => simp; linarith
    | succ m ih =>
      have e1 := hd (max M N + m) (by omega)
      have e2 := hN (max M N + m + 1) (by omega)
      rw [← Nat.add_assoc, e1]
      have t1 := abs_add_le (r * d (max M N + m)) (q * e (max M N + m + 1))
      rw [abs_mul r] at t1
      have t2 := mul_le_mul_of_nonneg_left ih (abs_nonneg r)
      rw [pow_succ]
      nlinarith
  obtain ⟨m, hm⟩ := exists_pow_lt_of_lt_one (x := ε / 2 / (|d (max M N)| + 1)) (by positivity) hr
  refine ⟨max M N + m, fun n hn => ?_⟩
  obtain ⟨j, rfl⟩ : ∃ j, n = max M N + (m + j) := ⟨n - (max M N + m), by omega⟩
  have h2 := hb (m + j)
  have h3 : |r| ^ (m + j) ≤ |r| ^ m := pow_le_pow_of_le_one (abs_nonneg r) hr.le (by omega)
  rw [lt_div_iff₀ (by positivity)] at hm
  have h4 := abs_nonneg (d (max M N))
  have h5 : |r| ^ (m + j) * |d (max M N)| ≤ |r| ^ m * |d (max M N)| := mul_le_mul_of_nonneg_right h3 h4
  have h6 : 0 ≤ |r| ^ m := by positivity
  nlinarith

/-- What was done to a filter or a stack. -/
inductive FilterOp
  | sample (x : Rat)
  | reset (v : Rat)

/-- A stack after a history of samples, some of which may have thrown, and of resets. -/
def FilterStack.history (b : Build) (st : FilterStack Rat) : List FilterOp → Res (FilterStack Rat)
  | [] => .ok st
  | .sample x :: ops =>
    match FilterStack.take b st x with
    | .error e => .error e
    | .ok (st', _) => FilterStack.history b st' ops
  | .reset v :: ops =>
    match FilterStack.resetTo st v with
    | .error e => .error e
    | .ok st' => FilterStack.history b st' ops

/-- A stack gives `a` for the samples `x`, without an exception. -/
def FilterStack.Gives (b : Build) (st : FilterStack Rat) (x a : Nat → Rat) : Prop :=
  ∃ S : Nat → FilterStack Rat, S 0 = st ∧ ∀ n, FilterStack.take b (S n) (x n) = .ok (S (n + 1), some (a n))

/-- Two filters of the same kind, in states their histories may have led to, that give the same in the long run if they get the same in the long run. -/
inductive FadingPair : Filter Rat → Filter Rat → Prop
  | mk {S : Type} {step : S → Rat → Res (S × Option Rat)} {cur : S → Rat} {reset : S → Rat → S} (Good : S → Prop) (hstep : ∀ s x s' y, Good s → step s x = .ok (s', y) → Good s')
      (hreset : ∀ s v, Good s → Good (reset s v))
      (hfade : ∀ (P Q : Nat → S) (x y a c : Nat → Rat), Good (P 0) → Good (Q 0) → (∀ n, step (P n) (x n) = .ok (P (n + 1), some (a n))) → (∀ n, step (Q n) (y n) = .ok (Q (n + 1), some (c n))) →
        Vanishes (fun n => x n - y n) → Vanishes (fun n => a n - c n)) {s t : S} (hs : Good s) (ht : Good t) : FadingPair ⟨S, s, step, cur, reset⟩ ⟨S, t, step, cur, reset⟩

/-- Two stacks of such filters. -/
inductive FadingStacks : FilterStack Rat → FilterStack Rat → Prop
  | nil : FadingStacks [] []
  | cons {f g fs gs} : FadingPair f g → FadingStacks fs gs → FadingStacks (some f :: fs) (some g :: gs)

theorem Vanishes.neg {a c : Nat → Rat} (h : Vanishes (fun n => a n - c n)) : Vanishes (fun n => c n - a n) :=
  h.mul (q := 1) fun n => by rw [abs_sub_comm, one_mul]

theorem FadingPair.symm {f g : Filter Rat} (h : FadingPair f g) : FadingPair g f := by
  cases h with
  | mk Good hstep hreset hfade hs ht => exact .mk Good hstep hreset hfade ht hs

theorem FadingStacks.symm {fs gs : FilterStack Rat} (h : FadingStacks fs gs) : FadingStacks gs fs := by
  induction h with
  | nil => exact .nil
  | cons hf _ ih => exact .cons hf.symm ih

theorem FadingPair.take {f g f' : Filter Rat} (h : FadingPair f g) {x : Rat} {y : Option Rat} (e : f.take x = .ok (f', y)) : FadingPair f' g := by
  cases h with
  | mk Good hstep hreset hfade hs ht =>
    rename_i S step cur reset s t
    cases h1 : step s x with
    | error _ => simp only [Filter.take, h1] at e; cases e
    | ok r =>
      simp only [Filter.take, h1] at e
      cases e
      exact .mk Good hstep hreset hfade (hstep _ _ _ _ hs h1) ht

theorem FadingStacks.take {b : Build} {fs gs : FilterStack Rat} (h : FadingStacks fs gs) : ∀ {x : Rat} {fs' : FilterStack Rat} {y : Option Rat}, FilterStack.take b fs x = .ok (fs', y) → FadingStacks fs' gs := by
  induction h with
  | nil => intro x fs' y e; cases e; exact .nil
  | @cons f g fs gs hf hs ih =>
    intro x fs' y e
    rw [FilterStack.take] at e
    cases h1 : f.take x with
    | error _ => rw [h1] at e; cases e
    | ok r =>
      obtain ⟨f', o⟩ := r
      rw [h1] at e
      simp only [res_bind_ok] at e
      cases o with
      | none => cases e; exact .cons (hf.take h1) hs
      | some z =>
        cases h2 : FilterStack.take b fs z with
        | error _ => simp only [h2] at e; cases e
        | ok r =>
          obtain ⟨r1, r2⟩ := r
          simp only [h2, res_bind_ok] at e
          cases e
          exact .cons (hf.take h1) (ih h2)

theorem FadingStacks.reset {fs gs : FilterStack Rat} (h : FadingStacks fs gs) {v : Rat} : ∀ {fs' : FilterStack Rat}, FilterStack.resetTo fs v = .ok fs' → FadingStacks fs' gs := by
  induction h with
  | nil => intro fs' e; cases e; exact .nil
  | @cons f g fs gs hf hs ih =>
    intro fs' e
    rw [FilterStack.resetTo] at e
    cases h2 : FilterStack.resetTo fs v with
    | error _ => simp only [h2] at e; cases e
    | ok r =>
      simp only [h2, res_bind_ok] at e
      cases e
      refine .cons ?_ (ih h2)
      cases hf with
      | mk Good hstep hreset hfade hs ht => exact .mk Good hstep hreset hfade (hreset _ v hs) ht

theorem FadingStacks.history {b : Build} (ops : List FilterOp) : ∀ {fs gs fs' : FilterStack Rat}, FadingStacks fs gs → FilterStack.history b fs ops = .ok fs' → FadingStacks fs' gs := by
  induction ops with
  | nil => intro fs gs fs' h e; cases e; exact h
  | cons op ops ih =>
    intro fs gs fs' h e
    cases op with
    | sample x =>
      rw [FilterStack.history] at e
      cases h1 : FilterStack.take b fs x with
      | error _ => rw [h1] at e; cases e
      | ok r => rw [h1] at e; exact ih (h.take h1) e
    | reset v =>
      rw [FilterStack.history] at e
      cases h1 : FilterStack.resetTo fs v with
      | error _ => rw [h1] at e; cases e
      | ok r => rw [h1] at e; exact ih (h.reset h1) e

/-- What the first filter of a stack does. -/
theorem gives_cons {b : Build} {T : Type} {s : T} {step : T → Rat → Res (T × Option Rat)} {cur : T → Rat} {reset : T → Rat → T} {fs : FilterStack Rat} {x a : Nat → Rat}
    (h : FilterStack.Gives b (some ⟨T, s, step, cur, reset⟩ :: fs) x a) :
    ∃ (P : Nat → T) (m : Nat → Rat), P 0 = s ∧ (∀ n, step (P n) (x n) = .ok (P (n + 1), some (m n))) ∧ FilterStack.Gives b fs m a := by
  obtain ⟨S, h0, h1⟩ := h
  have key : ∀ (p : T) (r : FilterStack Rat) (n : Nat), S n = some ⟨T, p, step, cur, reset⟩ :: r →
      ∃ p' r' m, S (n + 1) = some ⟨T, p', step, cur, reset⟩ :: r' ∧ step p (x n) = .ok (p', some m) ∧ FilterStack.take b r m = .ok (r', some (a n)) := by
    intro p r n e
    have h2 := h1 n
    rw [e, FilterStack.take, Filter.take] at h2
    cases h3 : step p (x n) with
    | error _ => simp only [h3] at h2; cases h2
    | ok q =>
      obtain ⟨p', o⟩ := q
      simp only [h3, res_bind_ok] at h2
      cases o with
      | none => cases (Prod.mk.inj (Except.ok.inj h2)).2
      | some m =>
        cases h4 : FilterStack.take b r m with
        | error _ => simp only [h4] at h2; cases h2
        | ok q =>
          obtain ⟨r', o⟩ := q
          simp only [h4, res_bind_ok] at h2
          have h2 := Except.ok.inj h2
          obtain ⟨h5, h6⟩ := Prod.mk.inj h2
          exact ⟨p', r', m, h5.symm, rfl, by rw [h4, h6]⟩
  have all : ∀ n, ∃ p r, S n = some ⟨T, p, step, cur, reset⟩ :: r := by
    intro n
    induction n with
    | zero => exact ⟨s, fs, h0⟩
    | succ n ih =>
      obtain ⟨p, r, e⟩ := ih
      obtain ⟨p', r', m, e', -, -⟩ := key p r n e
      exact ⟨p', r', e'⟩
  choose P R hPR using all
  have stepn : ∀ n, ∃ m, step (P n) (x n) = .ok (P (n + 1), some m) ∧ FilterStack.take b (R n) m = .ok (R (n + 1), some (a n)) := by
    intro n
    obtain ⟨p', r', m, e, e1, e2⟩ := key _ _ n (hPR n)
    rw [hPR (n + 1)] at e
    injection e with e3 e4
    injection e3 with e3
    injection e3 with e5 e6
    rw [e6, e4]
    exact ⟨m, e1, e2⟩
  choose m hm using stepn
  have hz := hPR 0
  rw [h0] at hz
  injection hz with e3 e4
  injection e3 with e3
  injection e3 with e5 e6
  exact ⟨P, m, e6.symm, fun n => (hm n).1, R, e4.symm, fun n => (hm n).2⟩

theorem FadingStacks.gives {b : Build} {fs gs : FilterStack Rat} (h : FadingStacks fs gs) : ∀ {x y a c : Nat → Rat}, FilterStack.Gives b fs x a → FilterStack.Gives b gs y c →
    Vanishes (fun n => x n - y n) → Vanishes (fun n => a n - c n) := by
  induction h with
  | nil =>
    intro x y a c ⟨S, s0, s1⟩ ⟨T, t0, t1⟩ hv
    have hnil : ∀ (S : Nat → FilterStack Rat) (x a : Nat → Rat), S 0 = [] → (∀ n, FilterStack.take b (S n) (x n) = .ok (S (n + 1), some (a n))) → ∀ n, S n = [] ∧ a n = x n := by
      intro S x a h0 h1 n
      have hS : ∀ n, S n = [] := by
        intro n
        induction n with
        | zero => exact h0
        | succ n ih =>
          have := h1 n
          rw [ih] at this
          exact (Prod.mk.inj (Except.ok.inj this)).1.symm
      have := h1 n
      rw [hS n] at this
      exact ⟨hS n, (Option.some.inj (Prod.mk.inj (Except.ok.inj this)).2).symm⟩
    have e1 : a = x := funext fun n => (hnil S x a s0 s1 n).2
    have e2 : c = y := funext fun n => (hnil T y c t0 t1 n).2
    rw [e1, e2]; exact hv
  | cons hf hs ih =>
    intro x y a c hx hy hv
    cases hf with
    | mk Good hstep hreset hfade hs ht =>
      obtain ⟨P, m, p0, p1, p2⟩ := gives_cons hx
      obtain ⟨Q, k, q0, q1, q2⟩ := gives_cons hy
      exact ih p2 q2 (hfade P Q x y m k (by rw [p0]; exact hs) (by rw [q0]; exact ht) p1 q1 hv)

/-- A filter whose values differ by no more than `q` times as much as its samples, whatever happened before. -/
theorem fading_lipschitz {S : Type} {step : S → Rat → Res (S × Option Rat)} {cur : S → Rat} {reset : S → Rat → S} (q : Rat)
    (h : ∀ s t x y s' t' a c, step s x = .ok (s', some a) → step t y = .ok (t', some c) → |a - c| ≤ q * |x - y|) (s t : S) : FadingPair ⟨S, s, step, cur, reset⟩ ⟨S, t, step, cur, reset⟩ :=
  .mk (fun _ => True) (fun _ _ _ _ _ _ => trivial) (fun _ _ _ => trivial)
    (fun P Q x y a c _ _ h1 h2 hv => hv.mul (q := q) fun n => h _ _ _ _ _ _ _ _ (h1 n) (h2 n)) trivial trivial

theorem ewma_counts {k : Rat} {P : Nat → Ewma Rat} {x : Nat → Rat} (h0 : 0 ≤ (P 0).n) (h : ∀ n, P (n + 1) = (P n).sample k (x n)) (n : Nat) : (n : Rat) ≤ (P n).n := by
  induction n with
  | zero => simpa using h0
  | succ n ih =>
    have : (P (n + 1)).n = (P n).n + 1 := by
      rw [h n]; unfold Ewma.sample; split <;> rfl
    rw [this]; push_cast; linarith

theorem fading_ewma {k : Rat} (hk : 1 / 2 < k) : FadingPair (Filter.ewma k) (Filter.ewma k) := by
  refine .mk (fun s : Ewma Rat => 0 ≤ s.n) ?_ (fun s v _ => le_refl (0 : Rat)) ?_ (le_refl (0 : Rat)) (le_refl (0 : Rat))
  · intro s x s' y hs e
    obtain ⟨rfl, -⟩ := Prod.mk.inj (Except.ok.inj e)
    have : (s.sample k x).n = s.n + 1 := by unfold Ewma.sample; split <;> rfl
    change 0 ≤ (s.sample k x).n
    rw [this]; linarith
  · intro P Q x y a c hP hQ h1 h2 hv
    have p : ∀ n, P (n + 1) = (P n).sample k (x n) ∧ a n = (P (n + 1)).value := by
      intro n
      obtain ⟨e1, e2⟩ := Prod.mk.inj (Except.ok.inj (h1 n))
      exact ⟨e1.symm, by rw [← e1]; exact (Option.some.inj e2).symm⟩
    have q : ∀ n, Q (n + 1) = (Q n).sample k (y n) ∧ c n = (Q (n + 1)).value := by
      intro n
      obtain ⟨e1, e2⟩ := Prod.mk.inj (Except.ok.inj (h2 n))
      exact ⟨e1.symm, by rw [← e1]; exact (Option.some.inj e2).symm⟩
    obtain ⟨M, hM⟩ := exists_nat_ge k
    have hk0 : 0 < k := by linarith
    have hr : |1 - 1 / k| < 1 := by
      rw [abs_lt]
      have h3 : 0 < 1 / k := by positivity
      have h4 : 1 / k < 2 := by rw [div_lt_iff₀ hk0]; linarith
      constructor <;> linarith
    refine vanishes_feedback (r := 1 - 1 / k) (q := 1 / k) (M := M + 1) hr hv fun n hn => ?_
    have hn' : (M : Rat) + 1 ≤ n := by exact_mod_cast hn
    have hM0 : (0 : Rat) ≤ M := Nat.cast_nonneg M
    have cP := ewma_counts hP (fun n => (p n).1) (n + 1)
    have cQ := ewma_counts hQ (fun n => (q n).1) (n + 1)
    push_cast at cP cQ
    have e1 := C82_weight (k := k) (s := P (n + 1)) (x := x (n + 1)) (by linarith) hk0 (by linarith)
    have e2 := C82_weight (k := k) (s := Q (n + 1)) (x := y (n + 1)) (by linarith) hk0 (by linarith)
    rw [(p (n + 1)).2, (q (n + 1)).2, (p (n + 1)).1, (q (n + 1)).1, e1, e2, (p n).2, (q n).2]
    ring

theorem map_near {c : MapCfg Rat} {x : Rat} {a : Rat} (h : c.map x = .ok (some a)) :
    ∃ x', x' = max c.inLo (min x c.inHi) ∧ a = c.outLo + (x' - c.inLo) / (c.inHi - c.inLo) * (c.outHi - c.outLo) := by
  refine ⟨_, rfl, ?_⟩
  unfold MapCfg.map at h
  by_cases hr : (Arith.lt x c.inLo || Arith.lt c.inHi x) = true
  · simp only [hr, if_true] at h
    by_cases ht : c.throws = true
    · simp only [ht, if_true] at h; cases h
    · simp only [ht, Bool.false_eq_true, if_false] at h
      unfold fclamp at h
      by_cases hl : Arith.lt c.inHi c.inLo = true
      · simp only [hl, if_true] at h; cases h
      · simp only [hl, Bool.false_eq_true, if_false, res_bind_ok] at h
        have e := (Option.some.inj (Except.ok.inj h)).symm
        have hl' : c.inLo ≤ c.inHi := not_lt.mp fun q => hl (decide_eq_true q)
        rw [e]
        have ec : (if Arith.lt x c.inLo then c.inLo else if Arith.lt c.inHi x then c.inHi else x) = max c.inLo (min x c.inHi) := by
          by_cases h1 : x < c.inLo
          · rw [if_pos (show Arith.lt x c.inLo = true from decide_eq_true h1), min_eq_left (h1.le.trans hl'), max_eq_left h1.le]
          · rw [if_neg (by simpa [Arith.lt] using h1)]
            by_cases h2 : c.inHi < x
            · rw [if_pos (show Arith.lt c.inHi x = true from decide_eq_true h2), min_eq_right h2.le, max_eq_right hl']
            · rw [if_neg (by simpa [Arith.lt] using h2), min_eq_left (not_lt.mp h2), max_eq_right (not_lt.mp h1)]
        rw [ec]; rfl
  · simp only [hr, Bool.false_eq_true, if_false] at h
    have e := (Option.some.inj (Except.ok.inj h)).symm
    simp only [Bool.or_eq_true, not_or] at hr
    have h1 : c.inLo ≤ x := not_lt.mp fun q => hr.1 (decide_eq_true q)
    have h2 : x ≤ c.inHi := not_lt.mp fun q => hr.2 (decide_eq_true q)
    rw [e, min_eq_left h2, max_eq_right h1]; rfl

theorem fading_mapped (c : MapCfg Rat) : FadingPair (Filter.mapped c) (Filter.mapped c) := by
  refine fading_lipschitz |(c.outHi - c.outLo) / (c.inHi - c.inLo)| ?_ _ _
  intro s t x y s' t' a d h1 h2
  have get : ∀ {v s' a x : Rat}, (c.map x >>= fun y => (.ok (y.getD v, y) : Res (Rat × Option Rat))) = .ok (s', some a) → c.map x = .ok (some a) := by
    intro v s' a x h
    cases e : c.map x with
    | error _ => rw [e] at h; cases h
    | ok o => rw [e] at h; rw [(Prod.mk.inj (Except.ok.inj h)).2]
  obtain ⟨x', ex, ea⟩ := map_near (get h1)
  obtain ⟨y', ey, ed⟩ := map_near (get h2)
  have hxy : |x' - y'| ≤ |x - y| := by
    rw [ex, ey]
    have h1 := abs_max_sub_max_le_max c.inLo (min x c.inHi) c.inLo (min y c.inHi)
    have h2 := abs_min_sub_min_le_max x c.inHi y c.inHi
    simp only [sub_self, abs_zero] at h1 h2
    rw [max_eq_right (abs_nonneg (min x c.inHi - min y c.inHi))] at h1
    rw [max_eq_left (abs_nonneg (x - y))] at h2
    exact h1.trans h2
  have e : a - d = (c.outHi - c.outLo) / (c.inHi - c.inLo) * (x' - y') := by rw [ea, ed]; ring
  rw [e, abs_mul]
  exact mul_le_mul_of_nonneg_left hxy (abs_nonneg _)

theorem fading_inverter (b : Build) (lo hi : Rat) : FadingPair (Filter.inverter b lo hi) (Filter.inverter b lo hi) := by
  refine fading_lipschitz 1 ?_ _ _
  intro s t x y s' t' a d h1 h2
  have get : ∀ {s' a x : Rat}, (invert b lo hi x >>= fun y => (.ok (y, some y) : Res (Rat × Option Rat))) = .ok (s', some a) → a = hi - (x - lo) := by
    intro s' a x h
    unfold invert at h
    cases e : spnAssert b (Arith.le lo x && Arith.le x hi) with
    | error _ => rw [e] at h; cases h
    | ok _ => rw [e] at h; exact (Option.some.inj (Prod.mk.inj (Except.ok.inj h)).2).symm
  rw [get h1, get h2, one_mul, ← abs_neg]
  exact le_of_eq (congrArg _ (by ring))

theorem fading_passthrough : FadingPair Filter.passthrough Filter.passthrough := by
  refine fading_lipschitz 1 ?_ _ _
  intro s t x y s' t' a d h1 h2
  obtain rfl := Option.some.inj (Prod.mk.inj (Except.ok.inj h1)).2
  obtain rfl := Option.some.inj (Prod.mk.inj (Except.ok.inj h2)).2
  rw [one_mul]

/-- A filter that is set up sensibly: an average of more than half a sample, a range that is not a point. -/
def Setup.Sensible : Setup → Prop
  | .ewma k => 1 / 2 < k
  | .mapped c => c.inLo ≠ c.inHi
  | .inverter _ _ => True
  | .passthrough => True

theorem fading_setup (b : Build) {fs : List Setup} (h : ∀ f ∈ fs, f.Sensible) : FadingStacks (fs.map fun f => some (f.filter b)) (fs.map fun f => some (f.filter b)) := by
  induction fs with
  | nil => exact .nil
  | cons f fs ih =>
    refine .cons ?_ (ih fun g hg => h g (by simp [hg]))
    have hf := h f (by simp)
    cases f with
    | ewma k => exact fading_ewma hf
    | mapped c => exact fading_mapped c
    | inverter lo hi => exact fading_inverter b lo hi
    | passthrough => exact fading_passthrough

/-- **C186** for stacks of averages, mapped ranges, inverters and pass-through filters, in exact arithmetic: whatever samples, exceptions and resets two stacks of the same filters have
behind them, if they get the same samples from then on and neither throws, their values become and remain as close as one likes. Missing: stacks with a `BandPass`, and samples for which one of
them throws (`C186_band_counterexample`, `C186_throws_counterexample`). -/
theorem C186_stack_partial (b : Build) {fs : List Setup} (h : ∀ f ∈ fs, f.Sensible) {ops ops' : List FilterOp} {st st' : FilterStack Rat}
    (h1 : FilterStack.history b (fs.map fun f => some (f.filter b)) ops = .ok st) (h2 : FilterStack.history b (fs.map fun f => some (f.filter b)) ops' = .ok st')
    {x a c : Nat → Rat} (ha : FilterStack.Gives b st x a) (hc : FilterStack.Gives b st' x c) : ∀ ε : Rat, 0 < ε → ∃ N, ∀ n, N ≤ n → |a n - c n| < ε :=
  (FadingStacks.history ops' (FadingStacks.history ops (fading_setup b h) h1).symm h2).symm.gives ha hc
    (fun ε hε => ⟨0, fun n _ => by simpa using hε⟩)

/-- An average over 10 samples, two histories, and any further samples. -/
example (b : Build) (x : Nat → Rat) : Setup.Sensible (.ewma 10) ∧
    ∃ st st' a c, FilterStack.history b [some (Filter.ewma 10)] [.sample 7, .sample 9] = .ok st ∧ FilterStack.history b [some (Filter.ewma 10)] [.sample 3, .reset 5] = .ok st' ∧
      FilterStack.Gives b st x a ∧ FilterStack.Gives b st' x c := by
  have run : ∀ s : Ewma Rat, ∃ a, FilterStack.Gives b [some { Filter.ewma 10 with state := s }] x a := by
    intro s
    refine ⟨fun n => (s.samples 10 ((List.range (n + 1)).map x)).value, fun n => [some { Filter.ewma 10 with state := s.samples 10 ((List.range n).map x) }], rfl, fun n => ?_⟩
    have e : s.samples 10 ((List.range (n + 1)).map x) = (s.samples 10 ((List.range n).map x)).sample 10 (x n) := by
      rw [List.range_succ, List.map_append, Ewma.samples, List.foldl_append]; rfl
    simp only [e]
    rfl
  obtain ⟨a, ha⟩ := run ((Ewma.create.sample 10 7).sample 10 9)
  obtain ⟨c, hc⟩ := run ((Ewma.create.sample 10 3).reset 5)
  exact ⟨by simp only [Setup.Sensible]; norm_num, _, _, a, c, rfl, rfl, ha, hc⟩

/-- **C186** for an average, in exact arithmetic: after as many samples as the frame is long, each further sample leaves of the difference between two averages the part `1 - 1 / k`, and no more. -/
theorem C186_rate {k : Rat} (hk : 0 < k) (xs : List Rat) : ∀ {s t : Ewma Rat}, 0 < s.n → 0 < t.n → k ≤ s.n + 1 → k ≤ t.n + 1 →
    (s.samples k xs).value - (t.samples k xs).value = (1 - 1 / k) ^ xs.length * (s.value - t.value) := by
  induction xs with
  | nil => intro s t _ _ _ _; simp [Ewma.samples]
  | cons x xs ih =>
    intro s t hs ht hs' ht'
    have cnt : ∀ s : Ewma Rat, (s.sample k x).n = s.n + 1 := fun s => by unfold Ewma.sample; split <;> rfl
    have := ih (s := s.sample k x) (t := t.sample k x) (by rw [cnt]; linarith) (by rw [cnt]; linarith) (by rw [cnt]; linarith) (by rw [cnt]; linarith)
    rw [C82_weight hs hk hs', C82_weight ht hk ht'] at this
    change ((s.sample k x).samples k xs).value - ((t.sample k x).samples k xs).value = _
    rw [this, List.length_cons, pow_succ]
    ring

example : 0 < (Ewma.create.samples (4 : Rat) [1, 2, 3]).n ∧ 4 ≤ (Ewma.create.samples (4 : Rat) [1, 2, 3]).n + 1 ∧
    (Ewma.create.samples (4 : Rat) [1, 2, 3, 8, 0]).value - (Ewma.create.samples (4 : Rat) [9, 2, 3, 8, 0]).value = (3 / 4) ^ 2 * (2 - 14 / 3) := by decide +kernel

/-- An average over half a sample does not forget: the difference changes its sign with every sample. -/
theorem C186_short_counterexample (xs : List Rat) : |((Ewma.create.sample (1 / 2) 0).samples (1 / 2) xs).value - ((Ewma.create.sample (1 / 2) 1).samples (1 / 2) xs).value| = 1 := by
  have e0 : Ewma.create.sample (1 / 2 : Rat) 0 = ⟨1, 0⟩ := by decide +kernel
  have e1 : Ewma.create.sample (1 / 2 : Rat) 1 = ⟨1, 1⟩ := by decide +kernel
  rw [e0, e1, C186_rate (by norm_num) xs (by norm_num) (by norm_num) (by norm_num) (by norm_num), abs_mul, abs_pow]
  norm_num

/-- **C186** for band-pass filters, in any arithmetic: as soon as two filters of the same configuration accept the same sample, they do the same for ever. -/
theorem C186_band_partial {F : Type} [Arith F] {c : BandCfg F} {s t s1 t1 : Band F} (hs : Band.Reachable c s) (ht : Band.Reachable c t) {x : F} {r q : Bool}
    (hbs : inBand c (s.base x) x = true) (hbt : inBand c (t.base x) x = true) (es : s.sample c x = .ok (r, s1)) (et : t.sample c x = .ok (q, t1)) (zs : List F) :
    r = true ∧ q = true ∧ s1.value = x ∧ t1.value = x ∧ (s1.samples c zs).map Prod.fst = (t1.samples c zs).map Prod.fst := by
  obtain ⟨s', e, v1, r1, i1⟩ := (Band.sample_cases (Band.inv_reachable hs) x).1 hbs
  obtain ⟨t', e', v2, r2, i2⟩ := (Band.sample_cases (Band.inv_reachable ht) x).1 hbt
  rw [es] at e
  rw [et] at e'
  cases e
  cases e'
  refine ⟨rfl, rfl, v1, v2, ?_⟩
  cases zs with
  | nil => rfl
  | cons z zs =>
    have key : s1.sample c z = t1.sample c z := by
      by_cases hrel : c.relative = true
      · obtain ⟨a1, a2, a3, a4⟩ := s1
        obtain ⟨b1, b2, b3, b4⟩ := t1
        simp only at r1 r2 v1 v2
        subst r1 r2 v1 v2
        simp only [Band.sample, Band.reset, Band.updateLimits, hrel, if_true]
        split <;> rfl
      · have hrel : c.relative = false := by simpa using hrel
        obtain ⟨l1, l2⟩ := i1.limits hrel
        obtain ⟨m1, m2⟩ := i2.limits hrel
        obtain ⟨a1, a2, a3, a4⟩ := s1
        obtain ⟨b1, b2, b3, b4⟩ := t1
        simp only at l1 l2 m1 m2 r1 r2 v1 v2
        subst l1 l2 m1 m2 r1 r2 v1 v2
        rfl
    rw [Band.samples, key, Band.samples]

/-- Two filters that began with 0 and 5 accept 2. -/
example : inBand (⟨true, 10, 0, 3, true⟩ : BandCfg Rat) (Band.base ⟨0, -10, 10, 1⟩ 2) 2 = true ∧ inBand (⟨true, 10, 0, 3, true⟩ : BandCfg Rat) (Band.base ⟨5, -5, 15, 0⟩ 2) 2 = true := by decide +kernel

/-- A band-pass filter need not forget: with a band of 10 around the value and samples that alternate between 0 and 100, the filter that began with 0 rejects every 100, the one that began with
100 every 0. -/
theorem C186_band_counterexample (m : Nat) : ∃ c : BandCfg Rat, c.width = 10 ∧
    Band.history c (0 :: (List.replicate m [0, 100]).flatten) = .ok (List.replicate (2 * m + 1) (true, 0)) ∧
    Band.history c (100 :: (List.replicate m [0, 100]).flatten) = .ok (List.replicate (2 * m + 1) (true, 100)) := by
  refine ⟨⟨true, 10, 0, 3, true⟩, rfl, ?_⟩
  have lo : ∀ (m : Nat) (r : Int), r = 0 ∨ r = 1 → ∃ s, Band.samples ⟨true, 10, 0, 3, true⟩ (⟨0, -10, 10, r⟩ : Band Rat) (List.replicate m [0, 100]).flatten = .ok (List.replicate (2 * m) (true, 0), s) := by
    intro m
    induction m with
    | zero => intro r _; exact ⟨_, rfl⟩
    | succ m ih =>
      intro r hr
      have e1 : Band.sample ⟨true, 10, 0, 3, true⟩ (⟨0, -10, 10, r⟩ : Band Rat) 0 = .ok (true, ⟨0, -10, 10, 0⟩) := by
        clear ih; rcases hr with rfl | rfl <;> decide +kernel
      have e2 : Band.sample ⟨true, 10, 0, 3, true⟩ (⟨0, -10, 10, 0⟩ : Band Rat) 100 = .ok (true, ⟨0, -10, 10, 1⟩) := by clear ih; decide +kernel
      obtain ⟨s, h⟩ := ih 1 (.inr rfl)
      refine ⟨s, ?_⟩
      simp only [List.replicate_succ, List.flatten_cons, List.cons_append, List.nil_append, Band.samples, e1, e2, res_bind_ok, h]
      rfl
  have hi : ∀ m : Nat, ∃ s, Band.samples ⟨true, 10, 0, 3, true⟩ (⟨100, 90, 110, 0⟩ : Band Rat) (List.replicate m [0, 100]).flatten = .ok (List.replicate (2 * m) (true, 100), s) := by
    intro m
    induction m with
    | zero => exact ⟨_, rfl⟩
    | succ m ih =>
      have e1 : Band.sample ⟨true, 10, 0, 3, true⟩ (⟨100, 90, 110, 0⟩ : Band Rat) 0 = .ok (true, ⟨100, 90, 110, 1⟩) := by clear ih; decide +kernel
      have e2 : Band.sample ⟨true, 10, 0, 3, true⟩ (⟨100, 90, 110, 1⟩ : Band Rat) 100 = .ok (true, ⟨100, 90, 110, 0⟩) := by clear ih; decide +kernel
      obtain ⟨s, h⟩ := ih
      refine ⟨s, ?_⟩
      simp only [List.replicate_succ, List.flatten_cons, List.cons_append, List.nil_append, Band.samples, e1, e2, res_bind_ok, h]
      rfl
  have e1 : Band.sample ⟨true, 10, 0, 3, true⟩ (Band.create ⟨true, 10, 0, 3, true⟩ : Band Rat) 0 = .ok (true, ⟨0, -10, 10, 0⟩) := by clear lo hi; decide +kernel
  have e2 : Band.sample ⟨true, 10, 0, 3, true⟩ (Band.create ⟨true, 10, 0, 3, true⟩ : Band Rat) 100 = .ok (true, ⟨100, 90, 110, 0⟩) := by clear lo hi e1; decide +kernel
  obtain ⟨s, h⟩ := lo m 0 (.inl rfl)
  obtain ⟨s', h'⟩ := hi m
  constructor
  · simp only [Band.history, Band.samples, e1, res_bind_ok, h]; rfl
  · simp only [Band.history, Band.samples, e2, res_bind_ok, h']; rfl

/-- An average and a range from 0 to 100 that throws. -/
def guarded : List Setup := [.ewma 2, .mapped ⟨0, 100, 0, 1, true⟩]

/-- Two stacks of an average and a range from 0 to 100 that throws do not forget what they began with: with samples of 100, the average that began with 50 remains below, the one that began with 200
above; the one stack gives a value for every sample, the other one throws at every sample. -/
theorem C186_throws_counterexample (b : Build) (m : Nat) :
    (∃ ys, FilterStack.outputs b (guarded.map fun f => some (f.filter b)) (50 :: List.replicate m 100) = .ok ys ∧ ys.length = m + 1 ∧ ∀ y ∈ ys, y.isSome = true) ∧
    FilterStack.outputs b (guarded.map fun f => some (f.filter b)) (200 :: List.replicate m 100) = .ok (List.replicate (m + 1) none) := by
  have half : ∀ s : Ewma Rat, 1 ≤ s.n → (s.sample 2 100).n = s.n + 1 ∧ (s.sample 2 100).value = (s.value + 100) / 2 := by
    intro s hs
    refine ⟨by unfold Ewma.sample; split <;> rfl, ?_⟩
    rw [C82_weight (by linarith) (by norm_num) (by linarith)]
    ring
  have low : ∀ (m : Nat) (s : Ewma Rat) (v : Rat), 1 ≤ s.n → 0 ≤ s.value → s.value ≤ 100 →
      ∃ ys, FilterStack.outputs b [some { Filter.ewma 2 with state := s }, some { Filter.mapped ⟨0, 100, 0, 1, true⟩ with state := v }] (List.replicate m 100) = .ok ys ∧ ys.length = m ∧ ∀ y ∈ ys, y.isSome = true := by
    intro m
    induction m with
    | zero => intro s v _ _ _; exact ⟨[], rfl, rfl, by simp⟩
    | succ m ih =>
      intro s v h1 h2 h3
      obtain ⟨c1, c2⟩ := half s h1
      have hm : ∃ y, MapCfg.map ⟨0, 100, 0, 1, true⟩ (s.sample 2 100).value = .ok (some y) := by
        have g : (Arith.lt (s.sample 2 100).value (0 : Rat) || Arith.lt (100 : Rat) (s.sample 2 100).value) = false := by
          simp only [Arith.lt, Bool.or_eq_false_iff, decide_eq_false_iff_not, not_lt, c2]
          constructor <;> linarith
        exact ⟨_, by unfold MapCfg.map; simp only [g]; rfl⟩
      obtain ⟨y, hy⟩ := hm
      obtain ⟨ys, i1, i2, i3⟩ := ih (s.sample 2 100) y (by linarith) (by linarith) (by linarith)
      refine ⟨some y :: ys, ?_, by simp [i2], by simpa using i3⟩
      have e : FilterStack.take b [some { Filter.ewma 2 with state := s }, some { Filter.mapped ⟨0, 100, 0, 1, true⟩ with state := v }] 100 =
          .ok ([some { Filter.ewma 2 with state := s.sample 2 100 }, some { Filter.mapped ⟨0, 100, 0, 1, true⟩ with state := y }], some y) := by
        simp only [FilterStack.take, Filter.take, Filter.ewma, Filter.mapped, hy, res_bind_ok]; rfl
      rw [List.replicate_succ, FilterStack.outputs, e]
      simp only [i1]
      rfl
  have high : ∀ (m : Nat) (s : Ewma Rat) (v : Rat), 1 ≤ s.n → 100 < s.value →
      FilterStack.outputs b [some { Filter.ewma 2 with state := s }, some { Filter.mapped ⟨0, 100, 0, 1, true⟩ with state := v }] (List.replicate m 100) = .ok (List.replicate m none) := by
    intro m
    induction m with
    | zero => intro s v _ _; rfl
    | succ m ih =>
      intro s v h1 h2
      obtain ⟨c1, c2⟩ := half s h1
      have hy : MapCfg.map ⟨0, 100, 0, 1, true⟩ (s.sample 2 100).value = .ok none := by
        have g : (Arith.lt (s.sample 2 100).value (0 : Rat) || Arith.lt (100 : Rat) (s.sample 2 100).value) = true := by
          simp only [Arith.lt, Bool.or_eq_true, decide_eq_true_eq, c2]
          right; linarith
        unfold MapCfg.map; simp only [g]; rfl
      have e : FilterStack.take b [some { Filter.ewma 2 with state := s }, some { Filter.mapped ⟨0, 100, 0, 1, true⟩ with state := v }] 100 =
          .ok ([some { Filter.ewma 2 with state := s.sample 2 100 }, some { Filter.mapped ⟨0, 100, 0, 1, true⟩ with state := v }], none) := by
        simp only [FilterStack.take, Filter.take, Filter.ewma, Filter.mapped, hy, res_bind_ok]; rfl
      rw [List.replicate_succ, FilterStack.outputs, e]
      simp only [ih (s.sample 2 100) v (by linarith) (by linarith)]
      rfl
  constructor
  · have e : FilterStack.take b (guarded.map fun f => some (f.filter b)) 50 =
        .ok ([some { Filter.ewma 2 with state := (⟨1, 50⟩ : Ewma Rat) }, some { Filter.mapped ⟨0, 100, 0, 1, true⟩ with state := (1 / 2 : Rat) }], some (1 / 2)) := by
      have e1 : Ewma.create.sample (2 : Rat) 50 = ⟨1, 50⟩ := by clear low high half; decide +kernel
      have e2 : MapCfg.map ⟨0, 100, 0, 1, true⟩ (50 : Rat) = .ok (some (1 / 2)) := by clear low high half; decide +kernel
      simp only [guarded, Setup.filter, List.map, FilterStack.take, Filter.take, Filter.ewma, Filter.mapped, e1, e2, res_bind_ok]; rfl
    obtain ⟨ys, i1, i2, i3⟩ := low m ⟨1, 50⟩ (1 / 2) (le_refl _) (by norm_num) (by norm_num)
    refine ⟨some (1 / 2) :: ys, ?_, by simp [i2], by simpa using i3⟩
    rw [FilterStack.outputs, e]
    simp only [i1]
    rfl
  · have e : FilterStack.take b (guarded.map fun f => some (f.filter b)) 200 =
        .ok ([some { Filter.ewma 2 with state := (⟨1, 200⟩ : Ewma Rat) }, some { Filter.mapped ⟨0, 100, 0, 1, true⟩ with state := (fzero : Rat) }], none) := by
      have e1 : Ewma.create.sample (2 : Rat) 200 = ⟨1, 200⟩ := by clear low high half; decide +kernel
      have e2 : MapCfg.map ⟨0, 100, 0, 1, true⟩ (200 : Rat) = .ok none := by clear low high half; decide +kernel
      simp only [guarded, Setup.filter, List.map, FilterStack.take, Filter.take, Filter.ewma, Filter.mapped, e1, e2, res_bind_ok]; rfl
    rw [FilterStack.outputs, e]
    simp only [high m ⟨1, 200⟩ fzero (le_refl _) (by norm_num)]
    rfl

end Spine

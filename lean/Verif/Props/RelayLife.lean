import Verif.Props.Latch
/-!
# C209: how often a latch can switch
-/

namespace Spine
open Latch

variable {F : Type} [Arith F] {cfg : LatchConfig F}

namespace RelayLife

theorem switches_alternate (l : List (Int × Bool)) : ∀ cur : Bool, (switches cur l).IsChain (fun a c => c.2 = !a.2) ∧ ∀ a, (switches cur l).head? = some a → a.2 = !cur := by
  induction l with
  | nil => intro cur; exact ⟨.nil, nofun⟩
  | cons x l ih =>
    intro cur
    obtain ⟨t, s⟩ := x
    simp only [switches]
    split
    · exact ih cur
    · next hne =>
      refine ⟨?_, fun a ha => ?_⟩
      · obtain ⟨h1, h2⟩ := ih s
        exact List.isChain_cons.mpr ⟨fun b hb => h2 b hb, h1⟩
      · obtain rfl := Option.some.inj ha
        cases s <;> cases cur <;> simp_all

theorem switches_sublist (l : List (Int × Bool)) : ∀ cur : Bool, (switches cur l).Sublist l := by
  induction l with
  | nil => intro cur; exact .slnil
  | cons x l ih =>
    intro cur
    obtain ⟨t, s⟩ := x
    simp only [switches]
    split
    · exact (ih cur).cons _
    · exact (ih s).cons₂ _

/-- Changes that alternate, with a gap of `g` after each: two of them take both gaps. -/
theorem span {g : Bool → Int} : ∀ (n : Nat) (L : List (Int × Bool)) (a : Int × Bool), L.length = n → (a :: L).IsChain (fun a c => c.2 = !a.2) →
    (a :: L).IsChain (fun a c => g a.2 ≤ c.1 - a.1) → (a :: L).IsChain (fun a c => a.1 ≤ c.1) → ∃ b ∈ a :: L, a.1 + ((n / 2 : Nat) : Int) * (g true + g false) ≤ b.1 := by
  intro n
  induction n using Nat.strongRecOn with
  | _ n ih =>
    intro L a hn h1 h2 h3
    match L, hn with
    | [], hn => exact ⟨a, by simp, by simp [← hn]⟩
    | [b], hn =>
      subst hn
      exact ⟨b, by simp, by simpa using h3⟩
    | b :: c :: L, hn =>
      simp only [List.isChain_cons_cons] at h1 h2 h3
      obtain ⟨d, hd, h⟩ := ih (n - 2) (by simp at hn; omega) L c (by simp at hn; omega) h1.2.2 h2.2.2 h3.2.2
      refine ⟨d, by simp at hd ⊢; tauto, ?_⟩
      have e : n / 2 = (n - 2) / 2 + 1 := by simp at hn; omega
      rw [e, Nat.cast_add, Nat.cast_one, Int.add_mul, Int.one_mul]
      generalize (((n - 2) / 2 : Nat) : Int) * (g true + g false) = q at h ⊢
      have k : g a.2 + g b.2 = g true + g false := by
        rw [h1.1]; cases a.2 <;> simp [Int.add_comm]
      have := h2.1
      have := h2.2.1
      omega

end RelayLife

open RelayLife

/-- Specification: the minimal time of a state, less what is lost in rounding it and the times of the clock, which are at most `T`. -/
def LatchConfig.gap (cfg : LatchConfig F) (T : Int) (on : Bool) : Int := cfg.minTime on - |cfg.minTime on| / 2 ^ 24 - T / 2 ^ 24

/-- Specification: how often the response changes, from off, over the observations. -/
def changes (rs : List (Int × F)) (os : List Bool) : Nat := (switches false ((rs.map Prod.fst).zip os)).length

/-- **C209.** Whatever the readings are and however often they come: of the changes of a latch, every two but the first take the minimal time on and the minimal time off, up to the rounding
of times. -/
theorem C209_wear (hs : Sane cfg (2 ^ 60)) (h0 : 0 ≤ cfg.minOff) {t0 t1 T : Int} (hb0 : |t0| ≤ T) (hb1 : |t1| ≤ T) (hT : T ≤ 2 ^ 60) {rs : List (Int × F)} (hrs : Times t0 rs t1)
    (ht : t0 ≤ t1) :
    ∃ os, responses cfg t0 rs = .ok os ∧ (((changes rs os - 1) / 2 : Nat) : Int) * (cfg.gap T true + cfg.gap T false) ≤ t1 - t0 := by
  obtain ⟨os, h1, h2, h3⟩ := C41_minimal_partial hs h0 (hb0.trans hT) (hb1.trans hT) hrs
  refine ⟨os, h1, ?_⟩
  unfold changes
  have hal := (switches_alternate ((rs.map Prod.fst).zip os) false).1
  have hsub := switches_sublist ((rs.map Prod.fst).zip os) false
  have hfst : ((rs.map Prod.fst).zip os).map Prod.fst = rs.map Prod.fst := List.map_fst_zip (by simp [h2])
  have hord : (switches false ((rs.map Prod.fst).zip os)).IsChain (fun a c => a.1 ≤ c.1) := by
    have hp : ((rs.map Prod.fst).zip os).Pairwise (fun a c => a.1 ≤ c.1) := by
      rw [← List.pairwise_map (f := Prod.fst) (R := (· ≤ ·)), hfst]
      exact hrs.1
    exact (hp.sublist hsub).isChain
  have hin : ∀ a ∈ switches false ((rs.map Prod.fst).zip os), t0 ≤ a.1 ∧ a.1 ≤ t1 := by
    intro a ha
    have : a.1 ∈ ((rs.map Prod.fst).zip os).map Prod.fst := List.mem_map_of_mem (hsub.subset ha)
    rw [hfst] at this
    obtain ⟨r, hr, e⟩ := List.mem_map.mp this
    rw [← e]
    exact hrs.2 r hr
  generalize switches false ((rs.map Prod.fst).zip os) = sw at h3 hal hord hin
  have hgap : sw.IsChain (fun a c => cfg.gap T a.2 ≤ c.1 - a.1) := by
    have key : ∀ l : List (Int × Bool), (∀ a ∈ l, t0 ≤ a.1 ∧ a.1 ≤ t1) → l.IsChain (fun a c => cfg.minTime a.2 - |cfg.minTime a.2| / 2 ^ 24 - |a.1| / 2 ^ 24 ≤ c.1 - a.1) →
        l.IsChain (fun a c => cfg.gap T a.2 ≤ c.1 - a.1) := by
      intro l
      induction l with
      | nil => intro _ _; exact .nil
      | cons a l ih =>
        intro hl hc
        rw [List.isChain_cons] at hc ⊢
        refine ⟨fun b hb => ?_, ih (fun x hx => hl x (List.mem_cons_of_mem _ hx)) hc.2⟩
        have h := hc.1 b hb
        have ha := hl a List.mem_cons_self
        have hT' : |a.1| ≤ T := by
          rw [abs_le] at hb0 hb1 ⊢
          omega
        unfold LatchConfig.gap
        generalize |cfg.minTime a.2| = q at h ⊢
        generalize |a.1| = r at h hT'
        omega
    exact key sw hin h3
  cases sw with
  | nil => simpa using ht
  | cons a L =>
    obtain ⟨b, hb, h⟩ := span L.length L a rfl hal hgap hord
    have k1 := hin a List.mem_cons_self
    have k2 := hin b hb
    simp only [List.length_cons, Nat.add_sub_cancel]
    omega

/-- **C209.** While the clock is below 2^24 ms (more than four hours), with minimal times below that, too: a relay behind the latch switches at most twice for each time that minimal on time and minimal off time
fit into the time, and twice more. -/
theorem C209_count (hmax : |cfg.maxOn| ≤ 2 ^ 60 ∧ |cfg.maxOff| ≤ 2 ^ 60) (h0 : 0 ≤ cfg.minOff) (h0' : 0 ≤ cfg.minOn) (hp : 0 < cfg.minOn + cfg.minOff) (hm : cfg.minOn < 2 ^ 24 ∧ cfg.minOff < 2 ^ 24)
    {t0 t1 : Int} (hb0 : 0 ≤ t0) (ht : t0 ≤ t1) (hb1 : t1 < 2 ^ 24) {rs : List (Int × F)} (hrs : Times t0 rs t1) :
    ∃ os, responses cfg t0 rs = .ok os ∧ (changes rs os : Int) ≤ 2 * ((t1 - t0) / (cfg.minOn + cfg.minOff)) + 2 := by
  have hs : Sane cfg (2 ^ 60) := ⟨by rw [abs_of_nonneg h0']; omega, hmax.1, by rw [abs_of_nonneg h0]; omega, hmax.2⟩
  obtain ⟨os, h1, h2⟩ := C209_wear hs h0 (T := 2 ^ 24 - 1) (by rw [abs_of_nonneg hb0]; omega) (by rw [abs_of_nonneg (hb0.trans ht)]; omega) (by norm_num) hrs ht
  refine ⟨os, h1, ?_⟩
  have g1 : cfg.gap (2 ^ 24 - 1) true = cfg.minOn := by
    simp only [LatchConfig.gap, LatchConfig.minTime, if_true, abs_of_nonneg h0']; omega
  have g2 : cfg.gap (2 ^ 24 - 1) false = cfg.minOff := by
    simp only [LatchConfig.gap, LatchConfig.minTime, Bool.false_eq_true, if_false, abs_of_nonneg h0]; omega
  rw [g1, g2] at h2
  have := (Int.le_ediv_iff_mul_le hp).mpr h2
  generalize (t1 - t0) / (cfg.minOn + cfg.minOff) = q at this ⊢
  omega

/-- Readings that jump as soon as the fan of C41, with at least 20 ms on and 10 ms off, may switch. -/
def jumps : List (Int × Rat) := [(100, 31), (110, 10), (120, 10), (125, 25), (130, 31), (150, 10), (160, 31), (170, 10), (180, 10)]

/-- It switches six times in 80 ms, which is 2 · (80 / 30) + 2. -/
example : Times 100 jumps 180 ∧ (do return changes jumps (← responses fan 100 jumps) : Res Nat) = .ok 6 ∧ 2 * ((180 - 100) / (fan.minOn + fan.minOff)) + 2 = 6 := by decide +kernel

end Spine

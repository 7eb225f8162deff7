import Verif.Model.Filter
import Verif.Core.Bind
import Mathlib.Tactic.Linarith
/-!
# C210: a band-pass filter never shows an outdated value
-/

namespace Spine

variable {F : Type} [Arith F]

namespace Band

/-- The value is the one `j` samples ago, and at least `j` samples have been rejected; or the `j` samples ago were before the history `h`, newest first. -/
def Age (s : Band F) (h : List F) (j : Nat) : Prop := (j : Int) ≤ s.rejections ∧ (h[j]? = some s.value ∨ h.length ≤ j)

theorem sample_age {c : BandCfg F} {s s' : Band F} {h : List F} {j : Nat} {x : F} {ok : Bool} (ha : s.Age h j) (hr : s.sample c x = .ok (ok, s')) :
    ∃ j', s'.Age (x :: h) j' ∧ (ok = true → j' ≤ c.limit.toNat) := by
  obtain ⟨h1, h2⟩ := ha
  have h0 : 0 ≤ s.rejections := by omega
  unfold sample at hr
  simp only at hr
  have base : ∃ t : Band F, t = (if c.relative = true then updateLimits c (if feq s.value unset = true then s.reset x else s) else if feq s.value unset = true then s.reset x else s) ∧
      t.rejections = s.rejections ∧ (t.value = x ∨ t.value = s.value) := by
    refine ⟨_, rfl, ?_⟩
    split <;> split <;> simp [updateLimits, reset]
  obtain ⟨t, et, e1, e2⟩ := base
  rw [← et] at hr
  split at hr
  · obtain ⟨rfl, rfl⟩ := Prod.mk.inj (Except.ok.inj hr)
    exact ⟨0, ⟨by simp, Or.inl (by simp)⟩, fun _ => Nat.zero_le _⟩
  · obtain ⟨n, hn, hr⟩ := res_bind hr
    have hn' : n = s.rejections + 1 := by
      unfold i32 at hn
      split at hn
      · rw [← e1]; exact (Except.ok.inj hn).symm
      · cases hn
    subst hn'
    -- what is left if the sample is rejected
    have kept : ∃ j' : Nat, ((j' : Int) ≤ s.rejections + 1 ∧ ((x :: h)[j']? = some t.value ∨ (x :: h).length ≤ j')) := by
      rcases e2 with e2 | e2
      · exact ⟨0, by omega, Or.inl (by simp [e2])⟩
      · refine ⟨j + 1, by omega, ?_⟩
        rw [e2]
        simpa using h2
    split at hr
    · split at hr
      · obtain ⟨rfl, rfl⟩ := Prod.mk.inj (Except.ok.inj hr)
        obtain ⟨j', k1, k2⟩ := kept
        exact ⟨j', ⟨k1, k2⟩, nofun⟩
      · obtain ⟨rfl, rfl⟩ := Prod.mk.inj (Except.ok.inj hr)
        exact ⟨0, ⟨by simp; omega, Or.inl (by simp)⟩, fun _ => Nat.zero_le _⟩
    · next hle =>
      obtain ⟨rfl, rfl⟩ := Prod.mk.inj (Except.ok.inj hr)
      obtain ⟨j', k1, k2⟩ := kept
      exact ⟨j', ⟨k1, k2⟩, fun _ => by omega⟩

theorem samples_age {c : BandCfg F} (xs : List F) : ∀ {s s' : Band F} {h : List F} {j : Nat} {os : List (Bool × F)}, s.Age h j → s.samples c xs = .ok (os, s') →
    ∃ j', s'.Age (xs.reverse ++ h) j' := by
  induction xs with
  | nil => intro s s' h j os ha hr; cases hr; exact ⟨j, ha⟩
  | cons x xs ih =>
    intro s s' h j os ha hr
    simp only [samples] at hr
    obtain ⟨⟨ok, s1⟩, h1, hr⟩ := res_bind hr
    obtain ⟨⟨os1, s2⟩, h2, hr⟩ := res_bind hr
    cases hr
    obtain ⟨j1, a1, -⟩ := sample_age ha h1
    obtain ⟨j2, a2⟩ := ih a1 h2
    exact ⟨j2, by simpa using a2⟩

/-- **C210.** In any arithmetic, after any samples `xs` and one more: unless that one made the filter throw, the value is one of the last `limit + 1` samples. -/
theorem C210_fresh {c : BandCfg F} {s s1 s2 : Band F} (h0 : 0 ≤ s.rejections) {xs : List F} {x : F} {os : List (Bool × F)} (h1 : s.samples c xs = .ok (os, s1))
    (h2 : s1.sample c x = .ok (true, s2)) (hlen : c.limit.toNat ≤ xs.length) : s2.value ∈ (xs ++ [x]).drop (xs.length - c.limit.toNat) := by
  obtain ⟨j, a⟩ := samples_age xs (h := []) (j := 0) ⟨h0, Or.inr (by simp)⟩ h1
  obtain ⟨j', ⟨-, a2⟩, a3⟩ := sample_age a h2
  have hj := a3 rfl
  simp only [List.append_nil] at a2
  rcases a2 with a2 | a2
  · have hrev : x :: xs.reverse = (xs ++ [x]).reverse := by simp
    rw [hrev] at a2
    have hlt : j' < (xs ++ [x]).length := by simp; omega
    rw [List.getElem?_reverse hlt] at a2
    rw [List.mem_iff_getElem?]
    refine ⟨c.limit.toNat - j', ?_⟩
    rw [List.getElem?_drop, ← a2]
    congr 1
    simp
    omega
  · simp at a2; omega

theorem sample_value {c : BandCfg F} {s s' : Band F} {x : F} {ok : Bool} (h : s.sample c x = .ok (ok, s')) : s'.value = x ∨ (s'.value = s.value ∧ feq s.value unset = false) := by
  unfold sample at h
  simp only at h
  have base : ∃ t : Band F, t = (if c.relative = true then updateLimits c (if feq s.value unset = true then s.reset x else s) else if feq s.value unset = true then s.reset x else s) ∧
      (t.value = x ∨ (t.value = s.value ∧ feq s.value unset = false)) := by
    refine ⟨_, rfl, ?_⟩
    cases hu : feq s.value unset <;> split <;> simp [updateLimits, reset]
  obtain ⟨t, et, e⟩ := base
  rw [← et] at h
  split at h
  · obtain ⟨rfl, rfl⟩ := Prod.mk.inj (Except.ok.inj h)
    exact Or.inl rfl
  · obtain ⟨n, -, h⟩ := res_bind h
    split at h
    · split at h
      · obtain ⟨rfl, rfl⟩ := Prod.mk.inj (Except.ok.inj h); exact e
      · obtain ⟨rfl, rfl⟩ := Prod.mk.inj (Except.ok.inj h); exact Or.inl rfl
    · obtain ⟨rfl, rfl⟩ := Prod.mk.inj (Except.ok.inj h); exact e

/-- **C210.** So what a new filter shows has been measured: it is one of its samples, however many there were and whether it threw or not, from the first sample on. -/
theorem C210_measured {c : BandCfg F} {s' : Band F} {xs : List F} {os : List (Bool × F)} (hne : xs ≠ []) (hu : feq (unset : F) unset = true) (h : (Band.create c).samples c xs = .ok (os, s')) :
    s'.value ∈ xs := by
  have step : ∀ (xs ys : List F) {s s' : Band F} {os : List (Bool × F)}, s.value ∈ ys → s.samples c xs = .ok (os, s') → s'.value ∈ ys ++ xs := by
    intro xs
    induction xs with
    | nil => intro ys s s' os hs hr; cases hr; simpa using hs
    | cons x xs ih =>
      intro ys s s' os hs hr
      simp only [samples] at hr
      obtain ⟨⟨ok, s1⟩, h1, hr⟩ := res_bind hr
      obtain ⟨⟨os1, s2⟩, h2, hr⟩ := res_bind hr
      cases hr
      have : s1.value ∈ ys ++ [x] := by
        rcases sample_value h1 with e | e
        · simp [e]
        · rw [e.1]; simp [hs]
      simpa using ih (ys ++ [x]) this h2
  obtain ⟨x, xs', rfl⟩ := List.exists_cons_of_ne_nil hne
  simp only [samples] at h
  obtain ⟨⟨ok, s1⟩, h1, h⟩ := res_bind h
  obtain ⟨⟨os1, s2⟩, h2, h⟩ := res_bind h
  cases h
  have : s1.value = x := by
    rcases sample_value h1 with e | ⟨-, e⟩
    · exact e
    · have hc : (Band.create c).value = unset := rfl
      rw [hc, hu] at e
      cases e
  exact step xs' [x] (by simp [this]) h2

/-! ## Concrete cases -/

/-- The value that stands for "no value yet" is itself, in single precision and in exact arithmetic. -/
example : feq (unset : Fl) unset = true ∧ feq (unset : Rat) unset = true := by decide +kernel

/-- A band of 10 around the value, in which two samples may be rejected: after 0 and three samples of 100 the value is 100, one of the last three. -/
example : let c : BandCfg Rat := ⟨true, 10, 0, 2, false⟩
    ((Band.create c).samples c [0, 100, 100, 100]).map (fun r => r.1.map Prod.snd) = .ok [0, 0, 0, 100] := by decide +kernel

/-- If the filter throws, it goes on showing the old value: 0 after four samples of 100. -/
example : let c : BandCfg Rat := ⟨true, 10, 0, 2, true⟩
    ((Band.create c).samples c [0, 100, 100, 100, 100]).map Prod.fst = .ok [(true, 0), (true, 0), (true, 0), (false, 0), (false, 0)] := by decide +kernel

end Band

end Spine

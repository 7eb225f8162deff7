import Verif.Model.PoolCopies
import Verif.Props.Pool
import Verif.Core.Bind
/-!
# Property C128: copies of a pool
-/

namespace Spine

variable {ω : Type} [DecidableEq ω] {b : Build} {n : Nat}

/-- Histories of a populated pool and copies of it, none of which is destroyed. -/
inductive Pools.Trace (b : Build) (n : Nat) (q : List ω) : Pools ω → Prop
  | pool {p} (h : Nat) : Pool.Trace b n q p → Trace b n q (Pools.single h p)
  | copy {s h other s'} : Trace b n q s → s.views h = none → s.copy h other = .ok s' → Trace b n q s'
  | acquire {s h fuel x s'} : Trace b n q s → s.acquire b h fuel = .ok (x, s') → Trace b n q s'
  | share {s} (o : ω) : Trace b n q s → s.outside o ≠ 0 → Trace b n q (s.gain o)
  | release {s} (o : ω) : Trace b n q s → s.outside o ≠ 0 → Trace b n q (s.release o)

/-- Every pool is a pool of the objects `q`. -/
structure Pools.Inv (n : Nat) (q : List ω) (s : Pools ω) : Prop where
  live : s.freed = false
  rep : ∀ h v, s.views h = some v → Pool.Rep n (s.pool v) q

/-- `acquire` leaves the slots and the window alone. -/
theorem Pool.scanBack_vec : ∀ (fuel : Nat) (p : Pool ω) {r p'}, p.scanBack b fuel = .ok (r, p') → p'.vec = p.vec ∧ p'.outside = p.outside
  | 0, _, _, _, h => by cases h
  | fuel + 1, p, r, p', h => by
    unfold Pool.scanBack at h
    split at h
    · cases hg : p.vec.get b p.lookup with
      | error e => rw [hg] at h; cases h
      | ok x =>
        rw [hg, res_bind_ok] at h
        split at h
        · rw [res_pure] at h; cases h; exact ⟨rfl, rfl⟩
        · have := Pool.scanBack_vec fuel { p with lookup := (p.lookup + 1) % 2 ^ 16 } h; exact this
    · rw [res_pure] at h; cases h; exact ⟨rfl, rfl⟩

theorem Pool.acquire_vec {p p' : Pool ω} {fuel : Nat} {r : Option ω} (h : p.acquire b fuel = .ok (r, p')) : p'.vec = p.vec := by
  unfold Pool.acquire at h
  cases ha : spnAssert b p.isFullyPopulated with
  | error e => rw [ha] at h; cases h
  | ok u =>
    rw [ha, res_bind_ok] at h
    cases hs : p.scanBack b fuel with
    | error e => simp only [hs] at h; cases h
    | ok r1 =>
      obtain ⟨found, p1⟩ := r1
      have hv := (Pool.scanBack_vec fuel p hs).1
      simp only [hs, res_bind_ok] at h
      have hg : ∀ (p : Pool ω) (x : Option ω), (p.gain x).vec = p.vec := by intro p x; cases x <;> rfl
      cases found with
      | some x => simp only [res_pure, Except.ok.injEq, Prod.mk.injEq] at h; rw [← h.2, hg, hv]
      | none =>
        simp only at h
        cases hf : ({ p1 with lookup := 0 } : Pool ω).scanFront b p.lookup 0 fuel with
        | error e => rw [hf] at h; cases h
        | ok found =>
          rw [hf, res_bind_ok] at h
          cases found with
          | some x => simp only [res_pure, Except.ok.injEq, Prod.mk.injEq] at h; rw [← h.2, hg]; exact hv
          | none => simp only [res_pure, Except.ok.injEq, Prod.mk.injEq] at h; rw [← h.2]; exact hv

theorem Pools.view_ok {s : Pools ω} {h : Nat} {v : PoolView} (hv : s.view h = .ok v) : s.views h = some v := by
  unfold Pools.view at hv
  split at hv
  · next w hw => cases hv; exact hw
  · cases hv

theorem Pools.Inv.acquire {q : List ω} {s s' : Pools ω} (hi : Pools.Inv n q s) {h fuel : Nat} {x : Option ω}
    (ha : s.acquire b h fuel = .ok (x, s')) : Pools.Inv n q s' := by
  unfold Pools.acquire at ha
  cases hv : s.view h with
  | error e => rw [hv] at ha; cases ha
  | ok v =>
    rw [hv, res_bind_ok, if_neg (by rw [hi.live]; decide)] at ha
    cases hp : (s.pool v).acquire b fuel with
    | error e => rw [hp] at ha; cases ha
    | ok r =>
      rw [hp, res_bind_ok, res_pure] at ha
      simp only [Except.ok.injEq, Prod.mk.injEq] at ha
      obtain ⟨r, p'⟩ := r
      have hvec := Pool.acquire_vec hp
      have hr := (Pool.acquire_found (hi.rep h v (Pools.view_ok hv)) hp).1
      rw [← ha.2]
      have hst : p'.vec.store = s.store := by rw [hvec]; rfl
      have hlg : p'.vec.log = s.log := by rw [hvec]; rfl
      refine ⟨hi.live, fun k w hw => ?_⟩
      simp only [Pools.put] at hw
      split at hw
      · cases hw; exact hr
      · have := hi.rep k w hw
        simp only [Pools.pool, Pools.put, hst, hlg]
        exact this.withOutside _

theorem Pools.Trace.inv (hn : n < sizeMod) {q : List ω} {s : Pools ω} (h : Pools.Trace b n q s) : Pools.Inv n q s := by
  induction h with
  | pool h hp =>
    refine ⟨rfl, fun k v hv => ?_⟩
    simp only [Pools.single] at hv
    split at hv
    · cases hv; exact hp.rep hn
    · cases hv
  | @copy s h other s' _ hfree hc ih =>
    unfold Pools.copy at hc
    cases hv : s.view other with
    | error e => rw [hv] at hc; cases hc
    | ok v =>
      rw [hv, res_bind_ok, res_pure] at hc; cases hc
      refine ⟨ih.live, fun k w hw => ?_⟩
      simp only at hw
      split at hw
      · cases hw; exact ih.rep other v (Pools.view_ok hv)
      · exact ih.rep k w hw
  | acquire _ ha ih => exact ih.acquire ha
  | share o _ _ ih => exact ⟨ih.live, fun k w hw => (ih.rep k w hw).withOutside _⟩
  | release o _ _ ih => exact ⟨ih.live, fun k w hw => (ih.rep k w hw).withOutside _⟩

/-! ## C128 -/

/-- **C128 (partial).** As long as none of them is destroyed, a pool and its copies hand out the same objects together: whichever of them is asked, it hands out one that nobody
holds, wherever it was obtained, and finds one if there is one. Missing: copies stay usable when one of them is destroyed, which is false
(`C128_destroyed_copy_counterexample`, `C128_dangling_counterexample`), and at most 65535 objects (C29). -/
theorem C128_copies_partial {q : List ω} {s : Pools ω} (hs : Pools.Trace b n q s) (hn : n < sizeMod) (hlen : q.length ≤ 65535)
    (hb : b = .release ∨ q.length = n) {h : Nat} (hh : s.views h ≠ none) :
    ∃ r s', s.acquire b h (q.length + 1) = .ok (r, s') ∧ s.size h = .ok q.length ∧
      match r with
      | some o => o ∈ q ∧ s.outside o = 0 ∧ s'.outside o = 1 ∧ ∀ x, x ≠ o → s'.outside x = s.outside x
      | none => (∀ o ∈ q, s.outside o ≠ 0) ∧ s'.outside = s.outside := by
  have hi := hs.inv hn
  cases hv : s.views h with
  | none => exact absurd hv hh
  | some v =>
    have hv' : s.view h = .ok v := by simp only [Pools.view, hv]
    have hr := hi.rep h v hv
    obtain ⟨r, p', h1, _, h3⟩ := Pool.acquire_spec (b := b) hr (by omega) hb (q.length + 1) (by omega)
    refine ⟨r, s.put h v p', ?_, ?_, ?_⟩
    · simp only [Pools.acquire, hv', res_bind_ok, hi.live, Bool.false_eq_true, if_false, h1, res_pure]
    · simp only [Pools.size, hv', res_bind_ok, res_pure, Pool.size, hr.size]
    · cases r with
      | none => exact ⟨h3.1, h3.2⟩
      | some o =>
        obtain ⟨h4, h5, h6⟩ := h3
        have h5' : s.outside o = 0 := h5
        refine ⟨h4, h5', ?_, fun x hx => ?_⟩
        · simp only [Pools.put, h6, Pool.gain, Pools.pool, if_true, h5']
        · simp only [Pools.put, h6, Pool.gain, Pools.pool, if_neg hx]

/-- C128, exclusive use: no pool or copy hands out an object that somebody holds, in pools of any size. -/
theorem C128_exclusive_partial {q : List ω} {s : Pools ω} (hs : Pools.Trace b n q s) (hn : n < sizeMod) {o : ω} (hheld : s.outside o ≠ 0)
    (h fuel : Nat) (s' : Pools ω) : s.acquire b h fuel ≠ .ok (some o, s') := by
  intro ha
  have hi := hs.inv hn
  unfold Pools.acquire at ha
  cases hv : s.view h with
  | error e => rw [hv] at ha; cases ha
  | ok v =>
    rw [hv, res_bind_ok, if_neg (by rw [hi.live]; decide)] at ha
    cases hp : (s.pool v).acquire b fuel with
    | error e => rw [hp] at ha; cases ha
    | ok r =>
      rw [hp, res_bind_ok, res_pure] at ha
      simp only [Except.ok.injEq, Prod.mk.injEq] at ha
      obtain ⟨r, p'⟩ := r
      exact hheld ((Pool.acquire_found (hi.rep h v (Pools.view_ok hv)) hp).2 o ha.1).2

theorem Pools.exists_trace (hn : n < sizeMod) (q : List ω) (hq : q.Nodup) (hlen : q.length ≤ n) (outside : ω → Nat) :
    ∃ s, Pools.Trace b n q s ∧ s.outside = outside ∧ (∃ v, s.views 0 = some v ∧ v.owner = true) ∧ (∃ v, s.views 1 = some v ∧ v.owner = false) := by
  obtain ⟨p, h1, h2⟩ := Pool.exists_trace (b := b) hn q hq hlen outside
  refine ⟨_, .copy (.pool 0 h1) (h := 1) (other := 0) rfl rfl, h2, ⟨_, rfl, rfl⟩, ⟨_, rfl, rfl⟩⟩

/-- Two pools of three objects: the one held is skipped by either. -/
example : ∃ s s' s'' : Pools Nat, Pools.Trace b 3 [10, 11, 12] s ∧ s.outside 10 = 1 ∧ s.acquire b 1 4 = .ok (some 11, s') ∧ s'.acquire b 0 4 = .ok (some 12, s'') := by
  cases b
  · refine ⟨_, _, _, .copy (.pool 0 (.populate (.populate (.populate (.create fun o => if o = 10 then 1 else 0) ?_ ?_ rfl) ?_ ?_ rfl) ?_ ?_ rfl)) (h := 1) (other := 0) rfl rfl, rfl, rfl, rfl⟩ <;> decide
  · refine ⟨_, _, _, .copy (.pool 0 (.populate (.populate (.populate (.create fun o => if o = 10 then 1 else 0) ?_ ?_ rfl) ?_ ?_ rfl) ?_ ?_ rfl)) (h := 1) (other := 0) rfl rfl, rfl, rfl, rfl⟩ <;> decide

theorem Pool.get_mem {p : Pool ω} {i : Nat} {x : Option ω} (h : p.vec.get b i = .ok x) : x ∈ p.vec.store := by
  unfold Vec.get at h
  cases ha : spnAssert b (decide (p.vec.head + i < p.vec.tail)) with
  | error e => rw [ha] at h; cases h
  | ok u =>
    rw [ha, res_bind_ok] at h
    unfold rd at h
    split at h
    · next y hy => cases h; exact List.mem_of_getElem? hy
    · cases h

theorem Pool.scanBack_mem : ∀ (fuel : Nat) (p : Pool ω) {x p'}, p.scanBack b fuel = .ok (some x, p') → x ∈ p.vec.store
  | 0, _, _, _, h => by cases h
  | fuel + 1, p, x, p', h => by
    unfold Pool.scanBack at h
    split at h
    · cases hg : p.vec.get b p.lookup with
      | error e => rw [hg] at h; cases h
      | ok y =>
        rw [hg, res_bind_ok] at h
        split at h
        · rw [res_pure] at h; cases h; exact Pool.get_mem hg
        · have := Pool.scanBack_mem fuel { p with lookup := (p.lookup + 1) % 2 ^ 16 } h; exact this
    · rw [res_pure] at h; cases h

theorem Pool.scanFront_mem {p : Pool ω} {k : Nat} : ∀ (fuel i : Nat) {x}, p.scanFront b k i fuel = .ok (some x) → x ∈ p.vec.store
  | 0, _, _, h => by cases h
  | fuel + 1, i, x, h => by
    unfold Pool.scanFront at h
    split at h
    · cases hg : p.vec.get b i with
      | error e => rw [hg] at h; cases h
      | ok y =>
        rw [hg, res_bind_ok] at h
        split at h
        · rw [res_pure] at h; cases h; exact Pool.get_mem hg
        · exact Pool.scanFront_mem fuel _ h
    · rw [res_pure] at h; cases h

/-- What `acquire` returns comes out of a slot. -/
theorem Pool.acquire_mem {p p' : Pool ω} {fuel : Nat} {o : ω} (h : p.acquire b fuel = .ok (some o, p')) : some o ∈ p.vec.store := by
  unfold Pool.acquire at h
  cases ha : spnAssert b p.isFullyPopulated with
  | error e => rw [ha] at h; cases h
  | ok u =>
    rw [ha, res_bind_ok] at h
    cases hs : p.scanBack b fuel with
    | error e => simp only [hs] at h; cases h
    | ok r1 =>
      obtain ⟨found, p1⟩ := r1
      have hv := (Pool.scanBack_vec fuel p hs).1
      simp only [hs, res_bind_ok] at h
      cases found with
      | some x =>
        simp only [res_pure, Except.ok.injEq, Prod.mk.injEq] at h
        rw [← h.1]; exact Pool.scanBack_mem fuel p hs
      | none =>
        simp only at h
        cases hf : ({ p1 with lookup := 0 } : Pool ω).scanFront b p.lookup 0 fuel with
        | error e => rw [hf] at h; cases h
        | ok found =>
          rw [hf, res_bind_ok] at h
          cases found with
          | some x =>
            simp only [res_pure, Except.ok.injEq, Prod.mk.injEq] at h
            rw [← h.1, ← hv]; exact Pool.scanFront_mem (p := { p1 with lookup := 0 }) fuel 0 hf
          | none => simp only [res_pure, Except.ok.injEq, Prod.mk.injEq] at h; cases h.1

/-- C128, who frees: the slots belong to one pool, the original, whatever copies were made (and of copies too). Destroying any other pool does not free them. -/
theorem C128_one_owner {q : List ω} {s : Pools ω} (hs : Pools.Trace b n q s) : ∃ orig v, s.views orig = some v ∧ v.owner = true ∧
    ∀ h, h ≠ orig → ∀ fuel s', s.destroy b h fuel = .ok s' → s'.freed = false := by
  suffices key : s.freed = false ∧ ∃ orig v, s.views orig = some v ∧ v.owner = true ∧ ∀ h w, s.views h = some w → h ≠ orig → w.owner = false by
    obtain ⟨hf, orig, v, h1, h2, h3⟩ := key
    refine ⟨orig, v, h1, h2, fun h hne fuel s' hd => ?_⟩
    unfold Pools.destroy at hd
    cases hw : s.views h with
    | none => simp only [Pools.view, hw] at hd; cases hd
    | some w =>
      have hwo := h3 h w hw hne
      simp only [Pools.view, hw, res_bind_ok, hf, Bool.false_eq_true, false_and, if_false] at hd
      obtain ⟨p, -, hd⟩ := res_bind hd
      cases hd
      simp [Pools.put, hf, hwo]
  have hput : ∀ (s : Pools ω) (h : Nat) (v : PoolView) (p : Pool ω), s.views h = some v → s.freed = false →
      (∃ orig v, s.views orig = some v ∧ v.owner = true ∧ ∀ h w, s.views h = some w → h ≠ orig → w.owner = false) →
      (s.put h v p).freed = false ∧ ∃ orig w, (s.put h v p).views orig = some w ∧ w.owner = true ∧
        ∀ k w, (s.put h v p).views k = some w → k ≠ orig → w.owner = false := by
    rintro s h v p hv hf ⟨orig, w, h1, h2, h3⟩
    refine ⟨hf, orig, ?_⟩
    by_cases ho : orig = h
    · subst ho
      rw [h1] at hv
      cases hv
      refine ⟨{ v with head := p.vec.head, tail := p.vec.tail, lookup := p.lookup }, by simp only [Pools.put, if_true], h2, fun k w' hk hne => ?_⟩
      simp only [Pools.put, if_neg hne] at hk
      exact h3 k w' hk hne
    · refine ⟨w, by simp only [Pools.put, if_neg ho]; exact h1, h2, fun k w' hk hne => ?_⟩
      by_cases hkh : k = h
      · subst hkh
        simp only [Pools.put, if_true, Option.some.injEq] at hk
        rw [← hk]
        exact h3 k v hv hne
      · simp only [Pools.put, if_neg hkh] at hk
        exact h3 k w' hk hne
  induction hs with
  | pool h _ =>
    refine ⟨rfl, h, _, by simp only [Pools.single, if_true]; rfl, rfl, fun k w hk hne => ?_⟩
    simp [Pools.single, hne] at hk
  | @copy s h other s' _ hnone hc ih =>
    obtain ⟨hf, orig, v, h1, h2, h3⟩ := ih
    unfold Pools.copy at hc
    obtain ⟨v', hv', hc⟩ := res_bind hc
    cases hc
    have hoh : orig ≠ h := by rintro rfl; rw [h1] at hnone; cases hnone
    refine ⟨hf, orig, v, by simp only [if_neg hoh]; exact h1, h2, fun k w hk hne => ?_⟩
    by_cases hkh : k = h
    · subst hkh
      simp only [if_true, Option.some.injEq] at hk
      rw [← hk]
    · simp only [if_neg hkh] at hk
      exact h3 k w hk hne
  | @acquire s h fuel x s' _ ha ih =>
    unfold Pools.acquire at ha
    obtain ⟨v, hv, ha⟩ := res_bind ha
    rw [if_neg (by rw [ih.1]; decide)] at ha
    obtain ⟨r, -, ha⟩ := res_bind ha
    cases ha
    refine hput s h v r.2 ?_ ih.1 ih.2
    cases hw : s.views h with
    | none => simp only [Pools.view, hw] at hv; cases hv
    | some w => simp only [Pools.view, hw] at hv; cases hv; rfl
  | share _ _ _ ih => exact ih
  | release _ _ _ ih => exact ih

/-- C128 is false for copies that are destroyed: in a release build the destructor of a copy takes the first half of the objects (rounded up) out of the common slots. They are
deleted unless somebody holds them; the original goes on claiming to have all objects and never hands out one of that half again. -/
theorem C128_destroyed_copy_counterexample {q : List ω} {s : Pools ω} (hs : Pools.Trace .release n q s) (hn : n < sizeMod) {h orig : Nat} {v w : PoolView}
    (hne : h ≠ orig) (hv : s.views h = some v) (hcopy : v.owner = false) (hw : s.views orig = some w) :
    ∃ s', s.destroy .release h (q.length + 1) = .ok s' ∧ s'.size orig = .ok q.length ∧
      ∀ o ∈ q.take ((q.length + 1) / 2), s'.refs o = s.outside o ∧ ∀ fuel s'', s'.acquire .release orig fuel ≠ .ok (some o, s'') := by
  have hi := hs.inv hn
  have hr := hi.rep h v hv
  have hro := hi.rep orig w hw
  have hv' : s.view h = .ok v := by simp only [Pools.view, hv]
  obtain ⟨v', h1, h2⟩ := Pool.destroyLoop_spec (b := .release) (q.length + 1) (s.pool v) q 0 hr (by omega)
  have hd : (s.pool v).destroy .release (q.length + 1) = .ok { s.pool v with vec := v' } := by
    simp only [Pool.destroy, h1, res_bind_ok, spnAssert_release, res_pure]
  have hviews : ∀ x : Pools ω, ({ x with freed := x.freed || v.owner, views := fun k => if k = h then none else x.views k } : Pools ω).views orig = x.views orig := by
    intro x; simp only [if_neg (Ne.symm hne)]
  refine ⟨_, by simp only [Pools.destroy, hv', res_bind_ok, hi.live, Bool.false_eq_true, false_and, if_false, hd, res_pure]; rfl, ?_, ?_⟩
  · have : (s.pool w).size = q.length := by simp only [Pool.size, hro.size]
    simp only [Pools.size, Pools.view, if_neg (Ne.symm hne), Pools.put, hw, res_bind_ok, res_pure]
    exact congrArg Except.ok this
  · intro o ho
    have hnd : o ∉ q.drop ((q.length + 1) / 2) := by
      intro hmem
      have h3 := hr.nodup
      rw [← List.take_append_drop ((q.length + 1) / 2) q, List.nodup_append] at h3
      exact h3.2.2 o ho o hmem rfl
    refine ⟨?_, fun fuel s'' ha => ?_⟩
    · have := h2.refs o
      simp only [Nat.sub_zero] at this
      rw [if_neg hnd] at this
      simp only [Pools.refs, Pools.put, this, Pools.pool, Int.zero_add]
    · simp only [Pools.acquire, Pools.view, if_neg (Ne.symm hne), Pools.put, hw, res_bind_ok, hcopy, hi.live, Bool.or_false, Bool.false_eq_true, if_false] at ha
      generalize hP : Pools.pool (ω := ω) _ w = P at ha
      cases hp : P.acquire .release fuel with
      | error e => rw [hp] at ha; cases ha
      | ok r =>
        rw [hp, res_bind_ok, res_pure] at ha
        simp only [Except.ok.injEq, Prod.mk.injEq] at ha
        obtain ⟨r, p'⟩ := r
        obtain rfl : r = some o := ha.1
        have hm := Pool.acquire_mem hp
        rw [← hP] at hm
        obtain ⟨pre, post, log, he, _, _, hz, _⟩ := h2.vec
        simp only [Pools.pool] at hm
        have he' : v' = Vec.mk' pre ((q.drop ((q.length + 1) / 2)).map some) post log := he
        rw [he'] at hm
        simp only [Vec.mk', List.mem_append] at hm
        rcases hm with (hm | hm) | hm
        · exact absurd (hz _ (List.mem_append_left _ hm)) (by simp)
        · obtain ⟨y, hy, hyo⟩ := List.mem_map.mp hm
          cases hyo; exact hnd hy
        · exact absurd (hz _ (List.mem_append_right _ hm)) (by simp)

/-- Such programs exist, with any objects: nobody holds one, and the objects are gone although the original is alive. -/
example : ∃ s s' : Pools Nat, Pools.Trace .release 2 [10, 11] s ∧ s.destroy .release 1 3 = .ok s' ∧ s'.size 0 = .ok 2 ∧ s'.refs 10 = 0 := by
  obtain ⟨s, h1, h2, ⟨w, hw, _⟩, ⟨v, hv, hvo⟩⟩ := Pools.exists_trace (b := .release) (n := 2) (lt_sizeMod (by decide)) [10, 11] (by decide) (by decide) (fun _ => 0)
  obtain ⟨s', h3, h4, h5⟩ := C128_destroyed_copy_counterexample h1 (lt_sizeMod (by decide)) (h := 1) (orig := 0) (by decide) hv hvo hw
  refine ⟨s, s', h1, h3, h4, ?_⟩
  rw [(h5 10 (by decide)).1, h2]; rfl

/-- C128 is false in debug builds: the destructor of a copy of a pool with two or more objects fails its assertion. -/
theorem C128_debug_counterexample {q : List ω} {s : Pools ω} (hs : Pools.Trace .debug n q s) (hn : n < sizeMod) (hlen : 2 ≤ q.length) {h : Nat}
    (hh : s.views h ≠ none) (fuel : Nat) (hfuel : q.length < fuel) : s.destroy .debug h fuel = .error .assertFailed := by
  have hi := hs.inv hn
  cases hv : s.views h with
  | none => exact absurd hv hh
  | some v =>
    have hv' : s.view h = .ok v := by simp only [Pools.view, hv]
    have hr := hi.rep h v hv
    obtain ⟨v', h1, h2⟩ := Pool.destroyLoop_spec (b := .debug) fuel (s.pool v) q 0 hr (by omega)
    have : ((q.drop ((q.length - 0 + 1) / 2)).length == 0) = false := by simp; omega
    have hd : (s.pool v).destroy .debug fuel = .error .assertFailed := by
      simp only [Pool.destroy, h1, res_bind_ok, h2.empty, this]; rfl
    simp only [Pools.destroy, hv', res_bind_ok, hi.live, Bool.false_eq_true, false_and, if_false, hd, res_bind_error]

/-- C128 is false for copies that outlive the original: its destructor frees the slots, and every call of `acquire` on a copy, and destroying it, read freed memory. A pool that was "moved"
into another one is such an original. -/
theorem C128_dangling_counterexample {q : List ω} {s : Pools ω} (hs : Pools.Trace .release n q s) (hn : n < sizeMod) (hne : q ≠ []) {h orig : Nat} {v w : PoolView}
    (hdiff : h ≠ orig) (hv : s.views h = some v) (hw : s.views orig = some w) (howner : w.owner = true) :
    ∃ s', s.destroy .release orig (q.length + 1) = .ok s' ∧ ∀ b fuel, s'.acquire b h fuel = .error .ub ∧ s'.destroy b h fuel = .error .ub := by
  have hi := hs.inv hn
  have hr := hi.rep orig w hw
  have hrh := hi.rep h v hv
  have hw' : s.view orig = .ok w := by simp only [Pools.view, hw]
  obtain ⟨v', h1, h2⟩ := Pool.destroyLoop_spec (b := .release) (q.length + 1) (s.pool w) q 0 hr (by omega)
  have hd : (s.pool w).destroy .release (q.length + 1) = .ok { s.pool w with vec := v' } := by
    simp only [Pool.destroy, h1, res_bind_ok, spnAssert_release, res_pure]
  have hsize : usub v.tail v.head ≠ 0 := by
    have := hrh.size
    have hlen : q.length ≠ 0 := fun h0 => hne (List.length_eq_zero_iff.mp h0)
    simp only [Pools.pool, Vec.size] at this
    omega
  refine ⟨_, by simp only [Pools.destroy, hw', res_bind_ok, hi.live, Bool.false_eq_true, false_and, if_false, hd, res_pure]; rfl, fun b fuel => ⟨?_, ?_⟩⟩
  · simp only [Pools.acquire, Pools.view, if_neg hdiff, Pools.put, hv, res_bind_ok, howner, Bool.or_true, if_true]
  · simp only [Pools.destroy, Pools.view, if_neg hdiff, Pools.put, hv, res_bind_ok, howner, Bool.or_true, Pools.pool, Pool.size, Vec.size, ne_eq, hsize,
      not_false_eq_true, and_self, if_true]

/-- Such programs exist. -/
example : ∃ s s' : Pools Nat, Pools.Trace .release 2 [10, 11] s ∧ s.destroy .release 0 3 = .ok s' ∧ s'.acquire .release 1 3 = .error .ub := by
  obtain ⟨s, h1, _, ⟨w, hw, hwo⟩, ⟨v, hv, _⟩⟩ := Pools.exists_trace (b := .release) (n := 2) (lt_sizeMod (by decide)) [10, 11] (by decide) (by decide) (fun _ => 0)
  obtain ⟨s', h3, h4⟩ := C128_dangling_counterexample h1 (lt_sizeMod (by decide)) (by decide) (h := 1) (orig := 0) (by decide) hv hw hwo
  exact ⟨s, s', h1, h3, (h4 .release 3).1⟩

end Spine

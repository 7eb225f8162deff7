import Verif.Proofs.EventBase
/-!
# Property C122: destroying an event system
-/

namespace Spine

variable {ω δ H : Type} [DecidableEq ω] {b : Build} {beh : Behaviour ω δ H} {cfg : Config} {objs : List ω} {s : ES ω δ H}

namespace ES

/-- What is left of the reference counts, in release builds or when the assertions hold. -/
private theorem destroy_counts (hnd : objs.Nodup) (hl : objs.length = cfg.eventsCap) (hs : cfg.eventsCap < 2 ^ 16) (h : Reach b beh cfg objs s)
    (hb : b = .release ∨ cfg.eventsCap ≤ 1) :
    ∃ (s' : ES ω δ H) (q : List ω), s.destroy b (cfg.eventsCap + 1) = .ok s' ∧ s'.store.outside = s.store.outside ∧ q.Nodup ∧ (∀ o ∈ q, o ∈ objs) ∧
      (firedKeys s.trace ++ q.map fun x => (s.pipe.heap x).key).Perm (scheduledKeys s.trace) ∧
      ∀ o, s'.pool.useCount (some o) = s.store.outside o + (if o ∈ q then 1 else 0) +
        (if o ∈ objs.drop ((objs.length + 1) / 2 + (objs.length - (objs.length + 1) / 2 + 1) / 2) then 1 else 0) := by
  obtain ⟨q, hbase, hloc, hcfg⟩ := Reach.base hnd hl hs h
  obtain ⟨v, h1, h2⟩ := Pool.destroyLoop_spec (b := b) (cfg.eventsCap + 1) s.store objs 0 hbase.store (by omega)
  obtain ⟨v', h3, h4⟩ := Pool.destroyLoop_spec (b := b) (cfg.eventsCap + 1) { s.store with vec := v } _ 0 h2 (by
    rw [List.length_drop]; omega)
  have a1 : (spnAssert b ((({ s.store with vec := v } : Pool ω).size) == 0)) = .ok () := by
    rcases hb with rfl | hb
    · rfl
    · have : ({ s.store with vec := v } : Pool ω).size = 0 := by
        have := h2.size
        rw [List.length_drop] at this
        unfold Pool.size; rw [this]; omega
      rw [this]; exact spnAssert_true ..
  have a2 : spnAssert b (v'.empty) = .ok () := by
    rcases hb with rfl | hb
    · rfl
    · have := h4.empty
      simp only [List.length_drop] at this
      simp only [this]
      have : (objs.length - (objs.length - 0 + 1) / 2 - (objs.length - (objs.length - 0 + 1) / 2 - 0 + 1) / 2 == 0) = true := by
        simp; omega
      rw [this]; exact spnAssert_true ..
  refine ⟨{ s with map := [], store := { s.store with vec := v' } }, q, ?_, rfl, hbase.pipe.nodup, ?_, ?_, fun o => ?_⟩
  · simp only [destroy, Pool.destroy, h1, res_bind_ok, a1, h3, a2, res_pure]
  · intro o ho
    have := hbase.single o
    by_contra hn
    simp only [uses, ho, if_true, if_neg hn] at this
    omega
  · exact hbase.keys
  · have h5 := h4.refs o
    have h6 := hbase.pipe.slots o
    simp only [List.drop_drop, List.length_drop, Nat.sub_zero] at h5
    simp only [Pool.useCount, pool, hloc, List.count_nil, h5, h6]
    split <;> split <;> simp <;> omega

/-- C122 (partial). An event system for at most one event (in release builds: for at most three), all of whose scheduled events were
delivered, is destroyed without a failing assertion, and every event is left with the handles held by the program only.
Missing: more events (`C122_asserts_counterexample`, `C122_leak_counterexample`), pending events (`C122_leak_counterexample`). -/
theorem C122_destroy_partial (hnd : objs.Nodup) (hl : objs.length = cfg.eventsCap) (hs : cfg.eventsCap < 2 ^ 16) (h : Reach b beh cfg objs s)
    (hn : cfg.eventsCap ≤ 1 ∨ (b = .release ∧ cfg.eventsCap ≤ 3))
    (hidle : (firedKeys s.trace).length = (scheduledKeys s.trace).length) :
    ∃ s', s.destroy b (cfg.eventsCap + 1) = .ok s' ∧ ∀ o, s'.pool.useCount (some o) = s.store.outside o := by
  obtain ⟨s', q, h1, _, _, _, h2, h3⟩ := destroy_counts hnd hl hs h (by rcases hn with hn | hn; exact .inr hn; exact .inl hn.1)
  refine ⟨s', h1, fun o => ?_⟩
  have h2 := h2.length_eq
  simp only [List.length_append, List.length_map] at h2
  have hq : q = [] := List.eq_nil_of_length_eq_zero (by omega)
  have hd : objs.drop ((objs.length + 1) / 2 + (objs.length - (objs.length + 1) / 2 + 1) / 2) = [] :=
    List.drop_eq_nil_of_le (by rcases hn with hn | hn <;> omega)
  rw [h3, hq, hd]; simp

/-- C122 is false: in a debug build the destructor of every event system for two or more events fails its assertion, whatever happened before. -/
theorem C122_asserts_counterexample (hnd : objs.Nodup) (hl : objs.length = cfg.eventsCap) (hs : cfg.eventsCap < 2 ^ 16)
    (h : Reach .debug beh cfg objs s) (hn : 2 ≤ cfg.eventsCap) (fuel : Nat) (hf : cfg.eventsCap < fuel) :
    s.destroy .debug fuel = .error .assertFailed := by
  obtain ⟨q, hbase, hloc, hcfg⟩ := Reach.base hnd hl hs h
  obtain ⟨v, h1, h2⟩ := Pool.destroyLoop_spec (b := .debug) fuel s.store objs 0 hbase.store (by omega)
  have : (({ s.store with vec := v } : Pool ω).size == 0) = false := by
    have := h2.size
    rw [List.length_drop] at this
    unfold Pool.size; rw [this]; simp; omega
  simp only [destroy, h1, res_bind_ok, this]
  rfl

/-- C122 is false: in a release build nothing fails, and what is never released is, exactly: one reference to every event that is still
pending (scheduled, and not delivered), and one to each event in the last quarter or so of the pool. -/
theorem C122_leak_counterexample (hnd : objs.Nodup) (hl : objs.length = cfg.eventsCap) (hs : cfg.eventsCap < 2 ^ 16)
    (h : Reach .release beh cfg objs s) :
    ∃ (s' : ES ω δ H) (q : List ω), s.destroy .release (cfg.eventsCap + 1) = .ok s' ∧ q.Nodup ∧ (∀ o ∈ q, o ∈ objs) ∧
      (firedKeys s.trace ++ q.map fun x => (s.pipe.heap x).key).Perm (scheduledKeys s.trace) ∧
      ∀ o, s'.pool.useCount (some o) = s.store.outside o + (if o ∈ q then 1 else 0) +
        (if o ∈ objs.drop ((3 * objs.length + 3) / 4) then 1 else 0) := by
  obtain ⟨s', q, h1, _, h2, h3, h4, h5⟩ := destroy_counts hnd hl hs h (.inl rfl)
  refine ⟨s', q, h1, h2, h3, h4, fun o => ?_⟩
  rw [h5, show (objs.length + 1) / 2 + (objs.length - (objs.length + 1) / 2 + 1) / 2 = (3 * objs.length + 3) / 4 from by omega]

/-- Non-vacuity: four events, one delivered, one pending, one held by the program: in a release build two of the four are left over besides
the held one. -/
example : (do let s ← ES.create (H := Nat) .release ⟨1, 4, 2, false, 0, 0⟩ [10, 11, 12, 13] 0 0
              let s ← s.attach .release 0 (some 7)
              let s ← s.run .release (fun _ _ _ => .done) 3 9 (.schedule 0 5 1 (.wait 6 (.loop (.schedule 0 9 2 (.event 0 3 3 fun _ => .done)))))
              let s ← s.destroy .release 9
              return [10, 11, 12, 13].map fun o => s.pool.useCount (some o)) = .ok [1, 1, 0, 1] := by decide +kernel

/-- Non-vacuity: one event, delivered. -/
example : (do let s ← ES.create (H := Nat) b ⟨1, 1, 2, false, 0, 0⟩ [10] 0 0
              let s ← s.attach b 0 (some 7)
              let s ← s.run b (fun _ _ _ => .done) 3 9 (.schedule 0 5 1 (.wait 6 (.loop .done)))
              let s ← s.destroy b 9
              return ((firedKeys s.trace).length, s.pool.useCount (some 10))) = .ok (1, 0) := by cases b <;> decide +kernel

end ES
end Spine
